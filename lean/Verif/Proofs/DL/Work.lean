import Verif.Proofs.DL.Calls
import Verif.Spec.Work

/-! Helper lemmas: the work of covering, uncovering and freeing columns. -/
namespace DancingLinks
open Spec

variable {L : Lay} {t : TS}

theorem workIter_spec (d : Dir) (o : Nat) (l : List Nat) (body : Work → Nat → Prog Work)
    (I : List Nat → Work → Prop) (h0 : 0 ∉ l) (ho : o ∉ l.tail)
    (step : ∀ pre x post s, l = pre ++ x :: post → I pre s →
      s.1.Live x ∧ (s.1.node x).get d = (post ++ [o]).head (by simp) ∧
      ∃ s', body (s.1, s.2 + 1) x = .ok s' ∧ I (pre ++ [x]) s')
    (s : Work) (hs : I [] s) : ∃ s', workIter d (iterAt o l) s body = .ok (s'.1, s'.2 + 1) ∧ I l s' := by
  obtain ⟨s', e, hI⟩ := forIter_spec (Prod.fst : Work → Heap) d o l (fun s p => body (s.1, s.2 + 1) p) I h0 ho step s hs
  exact ⟨s', by rw [workIter, e]; rfl, hI⟩

theorem workSkip1_spec (d : Dir) (p : Nat) (l : List Nat) (body : Work → Nat → Prog Work)
    (I : List Nat → Work → Prop) (h0 : 0 ∉ p :: l) (hp : p ∉ l) (s : Work) (hs : I [] (s.1, s.2 + 1))
    (hlive : s.1.Live p) (hfirst : (s.1.node p).get d = (l ++ [p]).head (by simp))
    (step : ∀ pre x post s, l = pre ++ x :: post → I pre s →
      s.1.Live x ∧ (s.1.node x).get d = (post ++ [p]).head (by simp) ∧
      ∃ s', body (s.1, s.2 + 1) x = .ok s' ∧ I (pre ++ [x]) s') :
    ∃ s', workSkip1 d s p body = .ok (s'.1, s'.2 + 1) ∧ I l s' := by
  unfold workSkip1
  rw [iterSkip1_ok hlive (by grind) hp hfirst]
  exact workIter_spec d p l body I (by grind) (fun h => hp (List.mem_of_mem_tail h)) step _ hs

theorem workAll_spec (d : Dir) (p : Nat) (l : List Nat) (body : Work → Nat → Prog Work)
    (I : List Nat → Work → Prop) (h0 : 0 ∉ p :: l) (hp : p ∉ l) (s : Work) (hs : I [] s)
    (step : ∀ pre x post s, p :: l = pre ++ x :: post → I pre s →
      s.1.Live x ∧ (s.1.node x).get d = (post ++ [p]).head (by simp) ∧
      ∃ s', body (s.1, s.2 + 1) x = .ok s' ∧ I (pre ++ [x]) s') :
    ∃ s', workAll d s p body = .ok (s'.1, s'.2 + 1) ∧ I (p :: l) s' := by
  unfold workAll
  rw [iter_eq p l]
  exact workIter_spec d p (p :: l) body I h0 hp step s hs

/-! ### Number of nodes -/

/-- The active nodes. -/
def TS.items (t : TS) : List Nat := t.HR ++ t.HR.flatMap t.V

/-- Their number. -/
def TS.W (t : TS) : Nat := t.items.length

theorem TS.mem_items (t : TS) (p : Nat) : p ∈ t.items ↔ t.Act p := by
  simp [TS.items, TS.Act, DancingLinks.Act]

theorem TS.Ok.items_nodup (o : t.Ok L) : t.items.Nodup := by
  unfold TS.items
  rw [List.nodup_append, List.nodup_flatMap]
  refine ⟨(List.nodup_cons.1 o.core.ndH).2, ⟨o.core.ndV, ?_⟩, ?_⟩
  · refine (List.nodup_cons.1 o.core.ndH).2.pairwise_of_forall_ne ?_
    intro c hc c' hc' hne
    simp only [Function.onFun, List.disjoint_left]
    intro x hx hx'
    exact hne ((o.core.col c hc x hx).symm.trans (o.core.col c' hc' x hx'))
  · rintro c hc p hp rfl
    simp only [List.mem_flatMap] at hp
    obtain ⟨c', hc', hq⟩ := hp
    exact o.core.sep c (by simp [hc]) (o.core.isN c' hc' c hq)

theorem length_rem (c : Nat) (V : List Nat) : (rem L c V).length = 1 + V.length + (V.flatMap L.oth).length := by
  unfold rem
  rw [List.length_cons]
  induction V with
  | nil => rfl
  | cons q V ih =>
    simp only [List.flatMap_cons, List.length_append, List.length_cons] at ih ⊢
    omega

theorem TS.Ok.W_cover (o : t.Ok L) (G : L.Good) {c : Nat} (hc : c ∈ t.HR) :
    (t.cover L c).W + (rem L c (t.V c)).length = t.W := by
  have h : t.items.Perm ((t.cover L c).items ++ rem L c (t.V c)) := by
    rw [List.perm_ext_iff_of_nodup o.items_nodup]
    · intro p
      rw [List.mem_append, TS.mem_items, TS.mem_items, (o.act_split G hc p).1, or_comm]
    · rw [List.nodup_append]
      refine ⟨(o.cover G hc).items_nodup, o.rem_nodup G hc, ?_⟩
      rintro a ha b hb rfl
      exact (o.act_split G hc a).2 ⟨hb, (TS.mem_items _ a).1 ha⟩
  have := h.length_eq
  rw [List.length_append] at this
  exact this.symm

/-- The number of nodes of some columns. -/
def remSum (L : Lay) (V : Nat → List Nat) (cs : List Nat) : Nat := (cs.map fun c => (rem L c (V c)).length).sum

theorem SeqPost.W_eq {cs : List Nat} {t' : TS} (P : SeqPost L t cs t') (o : t.Ok L) (hn : cs.Nodup) :
    t'.W + remSum L t'.V cs = t.W := by
  have h : t.items.Perm (t'.items ++ cs.flatMap fun c => rem L c (t'.V c)) := by
    rw [List.perm_ext_iff_of_nodup o.items_nodup]
    · intro p
      rw [List.mem_append, TS.mem_items, TS.mem_items, P.act p, List.mem_flatMap]
    · rw [List.nodup_append, List.nodup_flatMap]
      refine ⟨P.ok.items_nodup, ⟨P.nodup, hn.pairwise_of_forall_ne ?_⟩, ?_⟩
      · intro c hc c' hc' hne
        simp only [Function.onFun, List.disjoint_left]
        intro x hx hx'
        exact P.disj c hc c' hc' hne x ⟨hx, hx'⟩
      · rintro a ha b hb rfl
        simp only [List.mem_flatMap] at hb
        obtain ⟨c, hc, hb⟩ := hb
        exact P.gone c hc a hb ((TS.mem_items _ a).1 ha)
  have := h.length_eq
  rw [List.length_append, List.length_flatMap] at this
  exact this.symm

theorem remSum_pos (L : Lay) (V : Nat → List Nat) (cs : List Nat) : cs.length ≤ remSum L V cs := by
  unfold remSum
  induction cs with
  | nil => simp
  | cons c cs ih =>
    simp only [List.map_cons, List.sum_cons, List.length_cons, length_rem]
    simp only [length_rem] at ih
    omega

theorem remSum_append (L : Lay) (V : Nat → List Nat) (cs ds : List Nat) :
    remSum L V (cs ++ ds) = remSum L V cs + remSum L V ds := by
  simp [remSum]

theorem remSum_cons (L : Lay) (V : Nat → List Nat) (c : Nat) (cs : List Nat) :
    remSum L V (c :: cs) = (rem L c (V c)).length + remSum L V cs := by
  simp [remSum]

/-! ### One column -/

/-- The calls of iterators for a column with the nodes `W`. -/
def colWork (L : Lay) (W : List Nat) : Nat := 2 + 3 * W.length + (W.flatMap L.oth).length

theorem colWork_le (c : Nat) (W : List Nat) : colWork L W ≤ 3 * (rem L c W).length := by
  rw [length_rem, colWork]; omega

theorem still_ok {f : Heap → Nat → Prog Heap} {s : Work} {p : Nat} {h : Heap} (e : f s.1 p = .ok h) :
    still f s p = .ok (h, s.2) := by
  simp [still, e]

/-- `workCover`, `workUncover` after `toHeader`. -/
def workCoverHd (s : Work) (c : Nat) : Prog Work := do
  let s ← still coverHorizontal s c
  workSkip1 .down s c fun s row => workSkip1 .right s row (still coverCell)
def workUncoverHd (s : Work) (c : Nat) : Prog Work := do
  let s ← workSkip1 .up s c fun s row => workSkip1 .left s row (still uncoverCell)
  still uncoverHorizontal s c
def workFreeHd (s : Work) (c : Nat) : Prog Work := do
  let s ← workSkip1 .down s c workFreeRow
  still Heap.dealloc s c

theorem workCover_eq {s : Work} {p c : Nat} (e : toHeader s.1 p = .ok c) : workCover s p = workCoverHd s c := by
  simp [workCover, e, workCoverHd]
theorem workUncover_eq {s : Work} {p c : Nat} (e : toHeader s.1 p = .ok c) : workUncover s p = workUncoverHd s c := by
  simp [workUncover, e, workUncoverHd]
theorem workFree_eq {s : Work} {p c : Nat} (e : toHeader s.1 p = .ok c) : workFree s p = workFreeHd s c := by
  simp [workFree, e, workFreeHd]

theorem workCoverHd_spec (G : L.Good) (o : t.Ok L) {c : Nat} (hc : c ∈ t.HR) (k : Nat) :
    workCoverHd (t.h, k) c = .ok ((t.cover L c).h, k + colWork L (t.V c)) := by
  have C := o.core
  have R := o.rows
  obtain ⟨k1, k2⟩ := killed_ok G C R hc
  have CV := (C.unlH hc).foldl_unlV _ k1 k2 |>.2.2
  unfold workCoverHd
  rw [still_ok (h := unlH t.h c) (coverHorizontal_ok (C.canH hc).1), Prog.ok_bind]
  have M0 := prefix_mid G C R hc [] (killed L t.V c) rfl
  have key := workSkip1_spec .down c (t.V c) (fun s row => workSkip1 .right s row (still coverCell))
    (fun pre s => s = ((pre.flatMap L.oth).foldl unlV (unlH t.h c), k + 1 + 3 * pre.length + (pre.flatMap L.oth).length))
    (C.nz_col G hc) (List.nodup_cons.1 (C.vnodup hc)).1 (unlH t.h c, k) rfl M0.live M0.ring.first ?_
  · obtain ⟨s', e, I⟩ := key
    rw [e, I]
    refine congrArg Prog.ok (Prod.ext rfl ?_)
    simp only [colWork]; omega
  · rintro pre q post s hV rfl
    have hq : q ∈ t.V c := by rw [hV]; simp
    have Nq := C.isN c hc q hq
    have M := prefix_mid G C R hc (pre.flatMap L.oth) ((q :: post).flatMap L.oth)
      (by simp [killed, hV])
    refine ⟨M.rlive q hq q (by simp), ?_, ?_⟩
    · have := M.ring; rw [hV] at this; exact this.next
    generalize hn : k + 1 + 3 * pre.length + (pre.flatMap L.oth).length = n
    have key := workSkip1_spec .right q (L.oth q) (still coverCell)
      (fun pre' s => s = (pre'.foldl unlV ((pre.flatMap L.oth).foldl unlV (unlH t.h c)), n + 2 + pre'.length)) (G.nz_row Nq)
      (List.nodup_cons.1 (G.nd q Nq)).1 ((pre.flatMap L.oth).foldl unlV (unlH t.h c), n + 1) rfl
      (M.rlive q hq q (by simp)) (M.rring q hq).first ?_
    · obtain ⟨s', e, I⟩ := key
      refine ⟨_, e, ?_⟩
      rw [I]
      refine Prod.ext (by simp) ?_
      simp only [List.flatMap_append, List.flatMap_cons, List.flatMap_nil, List.append_nil, List.length_append, List.length_cons,
        List.length_nil]
      omega
    · rintro pre' x post' s hO rfl
      have hx : x ∈ L.oth q := by rw [hO]; simp
      have M' := prefix_mid G C R hc (pre.flatMap L.oth ++ pre') (x :: post' ++ post.flatMap L.oth)
        (by simp [killed, hV, hO])
      rw [List.foldl_append] at M'
      refine ⟨M'.rlive q hq x (by simp [hx]), ?_, ?_⟩
      · have := M'.rring q hq; rw [hO] at this; exact this.next
      · refine ⟨_, still_ok (coverCell_ok ?_), ?_⟩
        · have := CV (pre.flatMap L.oth ++ pre') x (post' ++ post.flatMap L.oth) (by simp [killed, hV, hO])
          rwa [List.foldl_append] at this
        · refine Prod.ext (by simp) ?_
          simp only [List.length_append, List.length_cons, List.length_nil]
          omega

theorem workUncoverHd_spec (G : L.Good) (o : t.Ok L) {c : Nat} (hc : c ∈ t.HR) (k : Nat) :
    workUncoverHd ((t.cover L c).h, k) c = .ok (t.h, k + colWork L (t.V c)) := by
  have C := o.core
  have R := o.rows
  obtain ⟨k1, k2⟩ := killed_ok G C R hc
  have CV := (C.unlH hc).foldl_unlV _ k1 k2 |>.2.2
  unfold workUncoverHd
  have ML := prefix_mid G C R hc (killed L t.V c) [] (by simp)
  have nzr : 0 ∉ c :: (t.V c).reverse := by
    have := C.nz_col G hc; simp at this ⊢; exact this
  have key := workSkip1_spec .up c (t.V c).reverse (fun s row => workSkip1 .left s row (still uncoverCell))
    (fun pre s => s.2 = k + 1 + 3 * pre.length + (pre.flatMap L.oth).length ∧
      ∃ rest, t.V c = rest ++ pre.reverse ∧ s.1 = (rest.flatMap L.oth).foldl unlV (unlH t.h c))
    nzr (by simpa using (List.nodup_cons.1 (C.vnodup hc)).1)
    ((killed L t.V c).foldl unlV (unlH t.h c), k) ⟨rfl, t.V c, by simp, rfl⟩ ML.live ML.ring.reverse.first ?_
  · obtain ⟨s', e, I1, I⟩ := key
    show workSkip1 .up ((killed L t.V c).foldl unlV (unlH t.h c), k) c _ >>= _ = _
    rw [e, Prog.ok_bind]
    obtain ⟨rest, h1, h2⟩ := I
    have : rest = [] := by
      rw [List.reverse_reverse] at h1; simpa using h1
    subst this
    rw [still_ok (h := t.h) (by rw [h2]; exact uncoverHorizontal_unlH (C.canH hc).1)]
    refine congrArg Prog.ok (Prod.ext rfl ?_)
    have e2 : ((t.V c).reverse.flatMap L.oth).length = ((t.V c).flatMap L.oth).length := by
      simp [List.length_flatMap, List.map_reverse, List.sum_reverse]
    simp only [colWork, I1, e2, List.length_reverse]; omega
  · rintro pre q post s hV ⟨hs2, rest, hr, hs⟩
    have hV' : t.V c = post.reverse ++ q :: pre.reverse := by
      have := congrArg List.reverse hV; simpa using this
    have hrest : rest = post.reverse ++ [q] := by
      rw [hV'] at hr
      have h3 : post.reverse ++ [q] ++ pre.reverse = rest ++ pre.reverse := by simpa using hr
      exact (List.append_cancel_right h3).symm
    subst hrest
    have hq : q ∈ t.V c := by rw [hV']; simp
    have Nq := C.isN c hc q hq
    have M := prefix_mid G C R hc ((post.reverse ++ [q]).flatMap L.oth) (pre.reverse.flatMap L.oth)
      (by simp [killed, hV'])
    rw [← hs] at M
    refine ⟨M.rlive q hq q (by simp), ?_, ?_⟩
    · have := M.ring.reverse; rw [hV] at this; exact this.next
    have nzr : 0 ∉ q :: (L.oth q).reverse := by
      have := G.nz_row Nq; simp at this ⊢; exact this
    have key := workSkip1_spec .left q (L.oth q).reverse (still uncoverCell)
      (fun pre' s' => s'.2 = s.2 + 2 + pre'.length ∧ ∃ r, L.oth q = r ++ pre'.reverse ∧
        s'.1 = r.foldl unlV ((post.reverse.flatMap L.oth).foldl unlV (unlH t.h c)))
      nzr (by simpa using (List.nodup_cons.1 (G.nd q Nq)).1) (s.1, s.2 + 1)
      ⟨rfl, L.oth q, by simp, by rw [hs]; simp⟩ (M.rlive q hq q (by simp)) (M.rring q hq).reverse.first ?_
    · obtain ⟨h', e, I1, I⟩ := key
      refine ⟨_, e, ?_, post.reverse, by simp [hV'], ?_⟩
      · simp only [I1, hs2, List.length_append, List.length_cons, List.length_nil, List.flatMap_append, List.flatMap_cons,
          List.flatMap_nil, List.append_nil, List.length_reverse]
        omega
      obtain ⟨r, h1, h2⟩ := I
      have : r = [] := by rw [List.reverse_reverse] at h1; simpa using h1
      subst this
      exact h2
    · rintro pre' x post' s2 hO ⟨hs3, r, hr, hs4⟩
      have hO' : L.oth q = post'.reverse ++ x :: pre'.reverse := by
        have := congrArg List.reverse hO; simpa using this
      have hrest : r = post'.reverse ++ [x] := by
        rw [hO'] at hr
        have h3 : post'.reverse ++ [x] ++ pre'.reverse = r ++ pre'.reverse := by simpa using hr
        exact (List.append_cancel_right h3).symm
      subst hrest
      have hx : x ∈ L.oth q := by rw [hO']; simp
      have M' := prefix_mid G C R hc (post.reverse.flatMap L.oth ++ (post'.reverse ++ [x]))
        (pre'.reverse ++ pre.reverse.flatMap L.oth) (by simp [killed, hV', hO'])
      rw [List.foldl_append, ← hs4] at M'
      refine ⟨M'.rlive q hq x (by simp [hx]), ?_, ?_⟩
      · have := (M'.rring q hq).reverse; rw [hO] at this; exact this.next
      · rw [List.foldl_append] at hs4
        have hu : uncoverCell s2.1 x = .ok (post'.reverse.foldl unlV ((post.reverse.flatMap L.oth).foldl unlV (unlH t.h c))) := by
          rw [hs4]
          apply uncoverCell_unlV
          have := CV (post.reverse.flatMap L.oth ++ post'.reverse) x (pre'.reverse ++ pre.reverse.flatMap L.oth)
            (by simp [killed, hV', hO'])
          rwa [List.foldl_append] at this
        refine ⟨_, still_ok hu, ?_, post'.reverse, by simp [hO'], rfl⟩
        simp only [List.length_append, List.length_cons, List.length_nil, hs3]
        omega

theorem workFreeRow_spec {s : Heap} {q : Nat} {l : List Nat} (hl : ∀ x ∈ q :: l, s.Live x)
    (hr : HRing s .right q l) (hn : (q :: l).Nodup) (h0 : 0 ∉ q :: l) (k : Nat) :
    workFreeRow (s, k) q = .ok (freeSet s (l ++ [q]), k + 2 + l.length) := by
  have key := workSkip1_spec .right q l (still Heap.dealloc) (fun pre s' => s' = (freeSet s pre, k + 1 + pre.length)) h0
    (List.nodup_cons.1 hn).1 (s, k) (by rw [freeSet_nil]; rfl) (hl q (by simp)) hr.first ?_
  · obtain ⟨h', e, I⟩ := key
    unfold workFreeRow
    subst I
    rw [e, Prog.ok_bind, still_ok (dealloc_free ?_), freeSet_append]
    · refine congrArg Prog.ok (Prod.ext rfl ?_)
      simp only; omega
    · rw [live_congr (freeSet_mem (List.nodup_cons.1 hn).1)]
      exact hl q (by simp)
  · rintro pre x post s' hl' rfl
    have hx : x ∈ l := by rw [hl']; simp
    have hxp : x ∉ pre := by
      have := (List.nodup_cons.1 hn).2
      rw [hl', List.nodup_append] at this
      intro h; exact this.2.2 x h x (by simp) rfl
    have hlx : (freeSet s pre).Live x := (live_congr (freeSet_mem hxp)).2 (hl x (by simp [hx]))
    refine ⟨hlx, ?_, _, still_ok (dealloc_free hlx), ?_⟩
    · show ((freeSet s pre).node x).get _ = _
      rw [node_congr (freeSet_mem hxp)]
      rw [hl'] at hr
      exact hr.next
    · refine Prod.ext (by rw [freeSet_append]) ?_
      simp only [List.length_append, List.length_cons, List.length_nil]; omega

theorem workFreeHd_spec {s : Heap} {c : Nat} {W : List Nat} (M : Mid L c W s) (hn : (rem L c W).Nodup)
    (h0 : 0 ∉ rem L c W) (k : Nat) : ∃ s', freeHd s c = .ok s' ∧ workFreeHd (s, k) c = .ok (s', k + colWork L W) := by
  have hn0 : ∀ q ∈ W, (q :: L.oth q).Nodup := by
    unfold rem at hn
    rw [List.nodup_cons, List.nodup_flatMap] at hn
    exact hn.2.1
  have z : ∀ q ∈ W, 0 ∉ q :: L.oth q := fun q hq h => h0 (mem_rem.2 (Or.inr ⟨q, hq, h⟩))
  have ndc : c ∉ W := by
    unfold rem at hn
    rw [List.nodup_cons] at hn
    intro h; apply hn.1
    simp only [List.mem_flatMap]
    exact ⟨c, h, by simp⟩
  have z0 : 0 ∉ c :: W := by
    simp only [List.mem_cons, not_or]
    refine ⟨fun h => h0 (mem_rem.2 (Or.inl h)), fun h => z 0 h (by simp)⟩
  have hc : c ∉ W.flatMap fun q => L.oth q ++ [q] := by
    unfold rem at hn
    rw [List.nodup_cons] at hn
    intro h
    exact hn.1 (mem_flat_swap.1 h)
  have step : ∀ pre q post, W = pre ++ q :: post →
      (∀ x ∈ q :: L.oth q, (freeSet s (pre.flatMap fun q => L.oth q ++ [q])).Live x) ∧
      ((freeSet s (pre.flatMap fun q => L.oth q ++ [q])).node q).get .down = (post ++ [c]).head (by simp) ∧
      HRing (freeSet s (pre.flatMap fun q => L.oth q ++ [q])) .right q (L.oth q) := by
    intro pre q post hW
    have hq : q ∈ W := by rw [hW]; simp
    have hd : ∀ x ∈ q :: L.oth q, x ∉ pre.flatMap fun q => L.oth q ++ [q] := by
      intro x hx hpre
      unfold rem at hn
      rw [List.nodup_cons, hW] at hn
      have h2 := hn.2
      rw [List.flatMap_append, List.nodup_append] at h2
      refine h2.2.2 x ?_ x ?_ rfl
      · exact mem_flat_swap.1 hpre
      · simp only [List.mem_flatMap, List.mem_cons] at hx ⊢
        exact ⟨q, Or.inl rfl, hx⟩
    refine ⟨?_, ?_, (M.rring q hq).congr_mem fun a ha => freeSet_mem (hd a ha)⟩
    · intro x hx; rw [live_congr (freeSet_mem (hd x hx))]; exact M.rlive q hq x hx
    · rw [node_congr (freeSet_mem (hd q (by simp)))]
      have := M.ring; rw [hW] at this; exact this.next
  have key := workSkip1_spec .down c W workFreeRow
    (fun pre s' => s' = (freeSet s (pre.flatMap fun q => L.oth q ++ [q]),
      k + 1 + 3 * pre.length + (pre.flatMap L.oth).length)) z0 ndc (s, k)
      (by simp only [List.flatMap_nil, freeSet_nil]; rfl) M.live M.ring.first ?_
  have key' := forSkip1_spec .down c W freeRow
    (fun pre s' => s' = freeSet s (pre.flatMap fun q => L.oth q ++ [q])) z0 ndc s
      (freeSet_nil s).symm M.live M.ring.first ?_
  · obtain ⟨s1, e1, rfl⟩ := key
    obtain ⟨s2, e2, rfl⟩ := key'
    have hl : (freeSet s (W.flatMap fun q => L.oth q ++ [q])).Live c := by
      rw [live_congr (freeSet_mem hc)]; exact M.live
    refine ⟨_, by rw [freeHd, e2, Prog.ok_bind, dealloc_free hl], ?_⟩
    rw [workFreeHd, e1, Prog.ok_bind, still_ok (dealloc_free hl)]
    refine congrArg Prog.ok (Prod.ext rfl ?_)
    simp only [colWork]; omega
  · rintro pre q post s' hW rfl
    have hq : q ∈ W := by rw [hW]; simp
    obtain ⟨a, b, r⟩ := step pre q post hW
    refine ⟨a q (by simp), b, ?_⟩
    obtain ⟨h1, e1, e2⟩ := freeRow_spec a r (hn0 q hq) (z q hq)
    refine ⟨_, ?_, rfl⟩
    unfold freeRow
    rw [e1, Prog.ok_bind, e2, freeSet_append]
    simp
  · rintro pre q post s' hW rfl
    have hq : q ∈ W := by rw [hW]; simp
    obtain ⟨a, b, r⟩ := step pre q post hW
    refine ⟨a q (by simp), b, _, workFreeRow_spec a r (hn0 q hq) (z q hq) _, ?_⟩
    rw [freeSet_append]
    refine Prod.ext (by simp) ?_
    simp only [List.flatMap_append, List.flatMap_cons, List.flatMap_nil, List.append_nil, List.length_append, List.length_cons,
      List.length_nil]
    omega

end DancingLinks
