import Verif.Proofs.DL.Add

/-! Histories, reachability and the link between the pointer-level and the abstract exact cover. -/
namespace DancingLinks
open Spec

/-- The invariant of a whole history. -/
def HInv (M : List (List Nat)) (log : List (Nat × Except DLError Unit)) (m : Matrix) (h : Heap) : Prop :=
  ∃ h0 rows0 HR0 V0 RW, Bld h0 rows0 HR0 V0 RW M ∧ Cnt h0 HR0 V0 ∧
    ∃ t, Inv h0 rows0 HR0 V0 RW M (accepted log) t m ∧ t.h = h ∧ m.partialSolution = pushed log

theorem hist_inv {M : List (List Nat)} (hM : ∀ col ∈ M, col.Nodup) {log m h} (H : Hist M log m h) :
    HInv M log m h := by
  induction H with
  | new e =>
    obtain ⟨h0, rows0, HR0, V0, RW, e', B, C⟩ := new_bld hM
    rw [e'] at e
    simp only [Prog.ok.injEq, Prod.mk.injEq] at e
    obtain ⟨rfl, rfl⟩ := e
    exact ⟨_, _, _, _, _, B, C, _, inv_new B C, rfl, rfl⟩
  | @add log m h r res m' h' _ e ih =>
    obtain ⟨h0, rows0, HR0, V0, RW, B, C, t, I, rfl, hp⟩ := ih
    refine ⟨h0, rows0, HR0, V0, RW, B, C, ?_⟩
    have A := add_spec B I r
    split at A
    · rw [e] at A
      simp only [Prog.ok.injEq, Prod.mk.injEq] at A
      obtain ⟨rfl, rfl, rfl⟩ := A
      exact ⟨t, by simpa [accepted] using I, rfl, by simpa [pushed] using hp⟩
    · rw [e] at A
      simp only [Prog.ok.injEq, Prod.mk.injEq] at A
      obtain ⟨rfl, rfl, rfl⟩ := A
      refine ⟨t, ?_, rfl, by simp [pushed, hp]⟩
      have : accepted (log ++ [(r, Except.error DLError.invalidRow)]) = accepted log := by simp [accepted]
      rw [this]; exact I.push _
    · obtain ⟨t', m'', e', I', hp'⟩ := A
      rw [e] at e'
      simp only [Prog.ok.injEq, Prod.mk.injEq] at e'
      obtain ⟨rfl, rfl, rfl⟩ := e'
      refine ⟨t', ?_, rfl, by simp [pushed, hp', hp]⟩
      have : accepted (log ++ [(r, Except.ok ())]) = accepted log ++ [r] := by simp [accepted]
      rw [this]; exact I'
    · rw [e] at A; cases A

/-- Exact cover at pointer level is exact cover of the matrix. -/
theorem exC_iff {h0 : Heap} {rows0 HR0 : List Nat} {V0 RW : Nat → List Nat} {M : List (List Nat)}
    (B : Bld h0 rows0 HR0 V0 RW M) (S : List Nat) :
    ExC (layOf h0 HR0 V0 RW) (TS.mk h0 HR0 V0) S ↔ ExactCover M S := by
  have inj : ∀ c ∈ HR0, ∀ q ∈ V0 c, ∀ q' ∈ V0 c, (h0.node q).row = (h0.node q').row → q = q' := by
    intro c hc q hq q' hq' e
    exact B.rcol _ q ((B.rmem _ q).2 ⟨⟨c, hc, hq⟩, rfl⟩) q' ((B.rmem _ q').2 ⟨⟨c, hc, hq'⟩, e.symm⟩)
      ((B.hdr c hc q hq).trans (B.hdr c hc q' hq').symm)
  constructor
  · intro E
    refine ⟨E.nd, ?_, ?_⟩
    · intro r hr
      obtain ⟨c, hc, q, hq, e⟩ := E.act r hr
      refine ⟨_, B.mem_col.2 ⟨c, hc, rfl⟩, ?_⟩
      simp only [rowsOf, List.mem_map]; exact ⟨q, hq, e⟩
    · intro col hcol
      obtain ⟨c, hc, rfl⟩ := B.mem_col.1 hcol
      obtain ⟨q, hq, hS, hu⟩ := E.one c hc
      refine ⟨_, hS, ?_, ?_⟩
      · simp only [rowsOf, List.mem_map]; exact ⟨q, hq, rfl⟩
      · intro r' hr' hin
        simp only [rowsOf, List.mem_map] at hin
        obtain ⟨q', hq', rfl⟩ := hin
        rw [hu q' hq' hr']; rfl
  · intro E
    refine ⟨E.nodup, ?_, ?_⟩
    · intro r hr
      obtain ⟨col, hcol, hin⟩ := E.occurs r hr
      obtain ⟨c, hc, rfl⟩ := B.mem_col.1 hcol
      simp only [rowsOf, List.mem_map] at hin
      obtain ⟨q, hq, e⟩ := hin
      exact ⟨c, hc, q, hq, e⟩
    · intro c hc
      obtain ⟨r, hr, hin, hu⟩ := E.once _ (B.mem_col.2 ⟨c, hc, rfl⟩)
      simp only [rowsOf, List.mem_map] at hin hu
      obtain ⟨q, hq, e⟩ := hin
      refine ⟨q, hq, by simp only [layOf]; rw [e]; exact hr, ?_⟩
      intro q' hq' hS
      have := hu _ hS ⟨q', hq', rfl⟩
      exact inj c hc q' hq' q hq (this.trans e.symm)

theorem root_notAct {L : Lay} {t : TS} (o : t.Ok L) : ¬ t.Act L.root := by
  rintro (h | ⟨d, hd, h⟩)
  · exact (List.nodup_cons.1 o.core.ndH).1 h
  · exact o.core.sep _ (by simp) (o.core.isN d hd _ h)

theorem drop_empty {h : Heap} {r : Nat} (hl : h.Live r) (h0 : r ≠ 0) (hr : (h.node r).right = r)
    (hd : (h.node r).down = r) (m : Matrix) (hm : m.root = r) :
    ∃ h', m.drop h = .ok h' ∧ h'.next = h.next ∧ ∀ p, (p = r → h'.mem p = .freed) ∧ (p ≠ r → h'.mem p = h.mem p) := by
  refine ⟨freeSet h [r], ?_, rfl, ?_⟩
  · unfold Matrix.drop
    rw [hm]
    have inner : forAll .down h r (fun h node => h.dealloc node) = .ok (freeSet h [r]) := by
      have key := forAll_spec .down r [] (fun h node => h.dealloc node) (fun pre s => s = freeSet h pre)
        (by simpa using h0.symm) (by simp) h (freeSet_nil h).symm ?_
      · obtain ⟨h', e, rfl⟩ := key; exact e
      · rintro pre x post s e rfl
        cases pre with
        | nil =>
          simp only [List.nil_append, List.cons.injEq] at e
          obtain ⟨rfl, rfl⟩ := e
          rw [freeSet_nil]
          exact ⟨hl, by simpa [Node.get] using hd, _, dealloc_free hl, by simp⟩
        | cons y pre => simp at e
    have key := forAll_spec .right r [] (fun h header => forAll .down h header fun h node => h.dealloc node)
      (fun pre s => s = freeSet h pre) (by simpa using h0.symm) (by simp) h (freeSet_nil h).symm ?_
    · obtain ⟨h', e, rfl⟩ := key; exact e
    · rintro pre x post s e rfl
      cases pre with
      | nil =>
        simp only [List.nil_append, List.cons.injEq] at e
        obtain ⟨rfl, rfl⟩ := e
        rw [freeSet_nil]
        exact ⟨hl, by simpa [Node.get] using hr, _, inner, by simp⟩
      | cons y pre => simp at e
  · intro p
    constructor
    · rintro rfl; simp [freeSet]
    · intro hp; simp [freeSet, hp]

/-- The torus after a history represents the matrix left by the accepted rows. -/
theorem abs_hist {h0 : Heap} {rows0 HR0 : List Nat} {V0 RW : Nat → List Nat} {M : List (List Nat)} {A t m}
    (B : Bld h0 rows0 HR0 V0 RW M) (I : Inv h0 rows0 HR0 V0 RW M A t m) :
    t.abs (layOf h0 HR0 V0 RW) = residual M A := by
  have := abs_residual (rid := fun q => (h0.node q).row) (A := A) I.hsub I.vsub B.ndH B.ndV ?_ ?_
  · rw [B.mat] at this; exact this
  · intro c hc
    rw [I.hr c]
    simp only [hc, true_and]; rfl
  · intro c hc q hq
    rw [B.mat, I.vmem c hc q]
    simp only [hq, true_and]

/-- `solve` after a history: result and final memory. -/
theorem solve_histX {M : List (List Nat)} {log m h} (H : HInv M log m h) :
    ∃ res h', m.solve h = .ok (res, h') ∧ AllFreed h' ∧
      ((∃ S, res = .ok (pushed log ++ S) ∧ ExactCover M (accepted log ++ S) ∧
          algorithmX (residual M (accepted log)) = some S) ∨
       (res = .error .noSolution ∧ (¬ ∃ S, ExactCover M S ∧ ∀ a ∈ accepted log, a ∈ S) ∧
          algorithmX (residual M (accepted log)) = none)) := by
  obtain ⟨h0, rows0, HR0, V0, RW, B, C, t, I, rfl, hp⟩ := H
  have G := B.good
  set L := layOf h0 HR0 V0 RW with hL
  have o := I.ok
  have rt : m.root = L.root := I.root
  have one := B.one
  have ax : algorithmX (residual M (accepted log)) = search t.HR.length (t.abs L) := by
    rw [← abs_hist B I]; simp [algorithmX, TS.abs, hL]
  rcases solveHelper_spec G _ t o rfl m.partialSolution with ⟨S, h1, e, E, F, X⟩ | ⟨e, N, X⟩
  · -- found
    obtain ⟨h2, e2, nx, hf⟩ := drop_empty F.live (show L.root ≠ 0 by simp [hL, layOf]) F.right
      (F.down.trans I.rootD) m rt
    refine ⟨.ok (pushed log ++ S), h2, ?_, ?_, Or.inl ⟨S, rfl, (exC_iff B _).1 (I.ext S E), ax.trans (X _ (Nat.le_refl _))⟩⟩
    · unfold Matrix.solve
      rw [rt, e]
      simp only [Prog.ok_bind]
      rw [e2]
      simp [hp]
    · intro p
      have nx' : h2.next = h0.next := nx.trans (F.next.trans I.next)
      rw [nx']
      constructor
      · rintro ⟨p1, p2⟩
        by_cases hp1 : p = L.root
        · exact (hf p).1 hp1
        · rw [(hf p).2 hp1]
          by_cases ha : t.Act p
          · exact F.freed p ha
          · rw [F.keep p hp1 ha]
            rcases I.freed p p1 p2 with h | h | h
            · exact absurd h hp1
            · exact absurd h ha
            · exact h
      · intro hp'
        have hp1 : p ≠ L.root := by rw [hL]; simp only [layOf]; omega
        rw [(hf p).2 hp1]
        have hu := I.unal p hp'
        have ha : ¬ t.Act p := by
          intro ha
          have : t.h.Live p := by
            rcases ha with ha | ⟨d, hd, ha⟩
            · exact o.core.liveH p ha
            · exact o.core.liveV d hd p ha
          obtain ⟨n, hn⟩ := this
          rw [hu] at hn; cases hn
        rw [F.keep p hp1 ha, hu]
  · obtain ⟨h2, e2, nx, hf⟩ := drop_spec G o I.rootD m rt
    refine ⟨.error .noSolution, h2, ?_, ?_, Or.inr ⟨rfl, ?_, ax.trans (X _ (Nat.le_refl _))⟩⟩
    · unfold Matrix.solve
      rw [rt, e]
      simp only [Prog.ok_bind]
      rw [e2]; simp
    · intro p
      rw [nx, I.next]
      constructor
      · rintro ⟨p1, p2⟩
        by_cases ha : p = L.root ∨ t.Act p
        · exact (hf p).1 ha
        · rw [(hf p).2 ha]
          rcases I.freed p p1 p2 with h | h | h
          · exact absurd (Or.inl h) ha
          · exact absurd (Or.inr h) ha
          · exact h
      · intro hp'
        have hu := I.unal p hp'
        have hp1 : p ≠ L.root := by rw [hL]; simp only [layOf]; omega
        have ha : ¬ t.Act p := by
          intro ha
          have : t.h.Live p := by
            rcases ha with ha | ⟨d, hd, ha⟩
            · exact o.core.liveH p ha
            · exact o.core.liveV d hd p ha
          obtain ⟨n, hn⟩ := this
          rw [hu] at hn; cases hn
        rw [(hf p).2 (by rintro (h | h); exact hp1 h; exact ha h), hu]
    · rintro ⟨S, E, hA⟩
      exact N ⟨_, I.res S ((exC_iff B S).2 E) hA⟩

theorem solve_hist {M : List (List Nat)} {log m h} (H : HInv M log m h) :
    ∃ res h', m.solve h = .ok (res, h') ∧ AllFreed h' ∧
      ((∃ S, res = .ok (pushed log ++ S) ∧ ExactCover M (accepted log ++ S)) ∨
       (res = .error .noSolution ∧ ¬ ∃ S, ExactCover M S ∧ ∀ a ∈ accepted log, a ∈ S)) := by
  obtain ⟨res, h', e, f, ⟨S, h1, h2, _⟩ | ⟨h1, h2, _⟩⟩ := solve_histX H
  · exact ⟨res, h', e, f, .inl ⟨S, h1, h2⟩⟩
  · exact ⟨res, h', e, f, .inr ⟨h1, h2⟩⟩

theorem drop_hist {M : List (List Nat)} {log m h} (H : HInv M log m h) :
    ∃ h', m.drop h = .ok h' ∧ AllFreed h' := by
  obtain ⟨h0, rows0, HR0, V0, RW, B, C, t, I, rfl, hp⟩ := H
  have G := B.good
  have o := I.ok
  have one := B.one
  obtain ⟨h2, e2, nx, hf⟩ := drop_spec G o I.rootD m I.root
  refine ⟨h2, e2, ?_⟩
  intro p
  rw [nx, I.next]
  constructor
  · rintro ⟨p1, p2⟩
    by_cases ha : p = 1 ∨ t.Act p
    · exact (hf p).1 ha
    · rw [(hf p).2 ha]
      rcases I.freed p p1 p2 with h | h | h
      · exact absurd (Or.inl h) ha
      · exact absurd (Or.inr h) ha
      · exact h
  · intro hp'
    have hu := I.unal p hp'
    have hp1 : p ≠ 1 := by omega
    have ha : ¬ t.Act p := by
      intro ha
      have : t.h.Live p := by
        rcases ha with ha | ⟨d, hd, ha⟩
        · exact o.core.liveH p ha
        · exact o.core.liveV d hd p ha
      obtain ⟨n, hn⟩ := this
      rw [hu] at hn; cases hn
    rw [(hf p).2 (by rintro (h | h); exact hp1 h; exact ha h), hu]

/-! ### Reachable memories -/

theorem walk_mem {h : Heap} {d : Dir} {s p : Nat} {l : List Nat} (R : HRing h d s l) (W : Walk h d s p) : p ∈ l := by
  induction W with
  | first e hne =>
    have := R.first
    rw [node_of_mem e] at this
    cases l with
    | nil => simp at this; exact absurd this hne
    | cons a l => simp at this; rw [this]; simp
  | @next q n _ e hne ih =>
    obtain ⟨l1, l2, rfl⟩ := List.append_of_mem ih
    have := R.next
    rw [node_of_mem e] at this
    cases l2 with
    | nil => simp at this; exact absurd this hne
    | cons a l => simp at this; rw [this]; simp

theorem active_col {L : Lay} {t : TS} (o : t.Ok L) {p : Nat} (A : ActiveCol t.h L.root p) :
    ∃ c ∈ t.HR, p ∈ c :: t.V c := by
  rcases A with W | ⟨c, W, W'⟩
  · exact ⟨p, walk_mem o.core.hring W, by simp⟩
  · have hc := walk_mem o.core.hring W
    exact ⟨c, hc, by simp [walk_mem (o.core.vring c hc) W']⟩

theorem toHeader_act {L : Lay} {t : TS} (o : t.Ok L) {p c : Nat} (hc : c ∈ t.HR) (hp : p ∈ c :: t.V c) :
    toHeader t.h p = .ok c := by
  simp only [List.mem_cons] at hp
  rcases hp with rfl | hp
  · exact toHeader_hdr (o.core.liveH _ hc) (o.core.hdr0 _ hc)
  · exact toHeader_cell (o.core.liveV c hc p hp) (o.core.hdr c hc p hp) (o.core.c_ne_zero hc)

theorem reach_inv {M : List (List Nat)} (hM : ∀ col ∈ M, col.Nodup) {root h} (R : Reach M root h) :
    ∃ L t, L.Good ∧ TS.Ok L t ∧ t.h = h ∧ L.root = root := by
  induction R with
  | hist H e =>
    obtain ⟨h0, rows0, HR0, V0, RW, B, C, t, I, rfl, hp⟩ := hist_inv hM H
    exact ⟨_, t, B.good, I.ok, rfl, I.root.symm.trans e⟩
  | @cover h p h' _ A e ih =>
    obtain ⟨L, t, G, o, rfl, rfl⟩ := ih
    obtain ⟨c, hc, hp⟩ := active_col o A
    rw [coverColumn_eq (toHeader_act o hc hp), o.cover_exec G hc] at e
    simp only [Prog.ok.injEq] at e
    exact ⟨L, t.cover L c, G, o.cover G hc, e, rfl⟩

theorem toHeader_after {L : Lay} {t : TS} (G : L.Good) (o : t.Ok L) {p c : Nat} (hc : c ∈ t.HR) (hp : p ∈ c :: t.V c) :
    toHeader (t.cover L c).h p = .ok c := by
  have P := covers_spec G [c] t o (by simp) (by simpa using hc)
  have hh : ((t.cover L c).h.node p).header = (t.h.node p).header := P.header p
  simp only [List.mem_cons] at hp
  rcases hp with rfl | hp
  · exact toHeader_hdr (P.live _ (o.core.liveH _ hc)) (hh.trans (o.core.hdr0 _ hc))
  · exact toHeader_cell (P.live _ (o.core.liveV c hc p hp)) (hh.trans (o.core.hdr c hc p hp)) (o.core.c_ne_zero hc)

end DancingLinks
