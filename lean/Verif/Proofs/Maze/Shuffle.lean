import Verif.Proofs.Maze.Steps
import Verif.Spec.Shuffle
import Mathlib.Data.Int.CardIntervalMod
import Mathlib.Data.Fintype.BigOperators
import Mathlib.Data.Fintype.Pi

/-! Helper lemmas: `recursive_backtrack` is the random depth-first search of `Spec/Shuffle.lean`. -/
namespace Maze
open Spec

variable {w h : Nat}

/-- The search as a machine on the visited cells, the walls, the path and the directions left. It consumes the
draws `ds`, tries the directions in the order `o` and ends with the walls `g'`. -/
inductive Plays (w h : Nat) : List Nat → List Nat → List MazeNode → List Nat → List (List MazeDirection) →
    (Nat → List MazeDirection) → List MazeNode → Prop
  | done {V g cv} (hcv : ∀ v ∈ cv, v = []) : Plays w h [] V g [] cv (fun _ => []) g
  | pop {ds V g c rest cv o g'} (hv : cv[c]? = some []) (hp : Plays w h ds V g rest cv o g') :
      Plays w h ds V g (c :: rest) cv o g'
  | skip {r ds V g c rest cv v d v' o g'} (hv : cv[c]? = some v) (hne : v ≠ [])
      (hr : chooseRandom r v = .ok (some d, v')) (hb : ∀ b, nbr w h c d = some b → b ∈ V)
      (hp : Plays w h ds V g (c :: rest) (cv.set c v') o g') :
      Plays w h (r :: ds) V g (c :: rest) cv (Function.update o c (d :: o c)) g'
  | go {r ds V g c rest cv v d v' b o g'} (hv : cv[c]? = some v) (hne : v ≠ [])
      (hr : chooseRandom r v = .ok (some d, v')) (hb : nbr w h c d = some b) (hn : b ∉ V)
      (hp : Plays w h ds (b :: V) (openSide w g c d) (b :: c :: rest) (cv.set c v') o g') :
      Plays w h (r :: ds) V g (c :: rest) cv (Function.update o c (d :: o c)) g'

/-! ### The model plays -/

theorem tryOpen_maze {s : VState} {c m o : Nat} {opn} {r t} (H : tryOpen s c m o opn = .ok (.inr (r, t))) :
    t.maze = s.maze.modify o opn := by
  unfold tryOpen at H
  obtain ⟨⟨cm, conn⟩, _, H⟩ := Prog.bind_eq_ok.mp H
  obtain ⟨cb, _, H⟩ := Prog.bind_eq_ok.mp H
  cases cb
  · simp only [Bool.false_eq_true, if_false] at H
    obtain ⟨node, hnode, H⟩ := Prog.bind_eq_ok.mp H
    obtain ⟨maze, hmaze, H⟩ := Prog.bind_eq_ok.mp H
    obtain ⟨⟨u, conn2⟩, _, H⟩ := Prog.bind_eq_ok.mp H
    obtain ⟨_, _, H⟩ := Prog.bind_eq_ok.mp H
    simp at H
    obtain ⟨rfl, rfl⟩ := H
    simp only
    by_cases ho : o < s.maze.length
    · rw [getP_ok ho] at hnode
      rw [setP_ok ho] at hmaze
      obtain rfl := Prog.ok.inj hnode
      obtain rfl := Prog.ok.inj hmaze
      rw [List.modify_eq_set_getElem?]
      simp [ho]
    · simp [getP, List.getElem?_eq_none (Nat.le_of_not_lt ho)] at hnode
  · simp at H

theorem visitDir_maze {oc : Bool} {s : VState} {c : Nat} {d : MazeDirection} {r t}
    (H : visitDir oc c w h s d = .ok (.inr (r, t))) : t.maze = openSide w s.maze c d := by
  cases d
  · simp only [visitDir] at H
    split at H
    · cases H
    · obtain ⟨_, _, H⟩ := Prog.bind_eq_ok.mp H
      split at H
      · simp at H
      · obtain ⟨_, _, H⟩ := Prog.bind_eq_ok.mp H
        exact tryOpen_maze H
  · simp only [visitDir] at H
    obtain ⟨_, _, H⟩ := Prog.bind_eq_ok.mp H
    obtain ⟨_, _, H⟩ := Prog.bind_eq_ok.mp H
    split at H
    · simp at H
    · obtain ⟨_, _, H⟩ := Prog.bind_eq_ok.mp H
      exact tryOpen_maze H
  · simp only [visitDir] at H
    split at H
    · cases H
    · split at H
      · simp at H
      · next hm =>
        have hc1 : 1 ≤ c := by
          rcases Nat.eq_zero_or_pos c with h0 | h0
          · rw [h0] at hm; simp at hm
          · exact h0
        rw [subW_ok hc1] at H
        exact tryOpen_maze H
  · simp only [visitDir] at H
    split at H
    · simp at H
    · next hm =>
      rw [subW_ok (Nat.le_of_not_lt hm)] at H
      exact tryOpen_maze H

theorem loop_congr {σ α : Type} {body : σ → Prog (σ ⊕ α)} {s t : σ} (H : body s = body t) :
    loop body s = loop body t := by
  rw [loop, H, ← loop]

theorem backtrack_plays (oc : Bool) (rnd : Nat → Nat) (hw : 0 < w) (hh : 0 < h) (hn : w * h < 2 ^ 63) :
    ∀ (m : Nat) (s : RState) (V : List Nat), 2 * vsum s.canVisit + s.path.length = m → OInv w h s →
      (∀ x, x ∈ V ↔ R w h s.maze 0 x) →
      ∃ o g', Plays w h ((List.range' s.k (vsum s.canVisit)).map rnd) V s.maze s.path s.canVisit o g' ∧
        loop (backtrackBody oc rnd w h) s = .ok g' := by
  have hpos : 0 < w * h := Nat.mul_pos hw hh
  intro m
  induction m using Nat.strongRecOn with
  | ind m ih =>
    intro s V hm hI hVR
    obtain ⟨g, conn, path, cv, k⟩ := s
    have hI0 := hI
    obtain ⟨hM, hcv, hdone, hpath, hiso, hclosed⟩ := hI
    simp only at hM hcv hdone hpath hiso hclosed hVR hm ⊢
    cases path with
    | nil =>
      rcases backtrackBody_spec (oc := oc) (rnd := rnd) hw hh hn hI0 (R.refl hpos) with ⟨s', e, _⟩ | ⟨g', e, hP⟩
      · simp [backtrackBody] at e
      · have hg : g' = g := by simpa [backtrackBody] using e.symm
        subst hg
        have hz : ∀ v ∈ cv, v = [] := by
          intro v hv
          obtain ⟨i, hi, rfl⟩ := List.getElem_of_mem hv
          rcases hclosed i (hP.reach i (hcv ▸ hi)) with h1 | h1
          · cases h1
          · rw [List.getElem?_eq_getElem hi] at h1
            exact Option.some.inj h1
        have hz' : vsum cv = 0 := by
          unfold vsum
          rw [List.sum_eq_zero_iff]
          intro a ha
          obtain ⟨v, hv, rfl⟩ := List.mem_map.mp ha
          simp [hz v hv]
        refine ⟨fun _ => [], g', ?_, loop_inr e⟩
        rw [hz']
        exact .done hz
    | cons c rest =>
      have hr0c := hpath c (by simp)
      have hc : c < w * h := hr0c.choose_spec.choose
      have hc' : c < cv.length := hcv ▸ hc
      have hget := List.getElem?_eq_getElem hc'
      cases hv : cv[c] with
      | nil =>
        obtain ⟨s', e, hO, hT, hlt, hk⟩ := backtrackBody_turn (oc := oc) (rnd := rnd) hw hh hn hI0 (R.refl hpos) rfl
        have e1 : backtrackBody oc rnd w h ⟨g, conn, c :: rest, cv, k⟩ = .ok (.inl ⟨g, conn, rest, cv, k⟩) := by
          have : visitNext oc rnd c w h ⟨g, conn, [], k⟩ = .ok (none, ⟨g, conn, [], k⟩) :=
            loop_inr (by simp [visitBody])
          have hset : cv.set c [] = cv := by rw [← hv]; simp
          simp [backtrackBody, getP_ok hc', hv, this, setP_ok hc', hset]
        rw [e1] at e
        obtain rfl : (⟨g, conn, rest, cv, k⟩ : RState) = s' := by simpa using e
        rw [List.length_cons] at hm
        obtain ⟨o, g', h1, h2⟩ := ih (2 * vsum cv + rest.length) (by omega) _ V rfl hO hVR
        exact ⟨o, g', .pop (by rw [hget, hv]) h1, by rw [loop_inl e1]; exact h2⟩
      | cons v0 vs =>
        have hne : cv[c] ≠ [] := by rw [hv]; simp
        clear hv
        obtain ⟨hi, v', hch, hperm⟩ := chooseRandom_spec (rnd k) hne
        generalize cv[c][rnd k % cv[c].length] = d at hch hperm
        have hlen := hperm.length_eq
        simp only [List.length_cons] at hlen
        have hsum := vsum_set cv c v' hc'
        have hsum' : vsum cv = vsum (cv.set c v') + 1 := by omega
        have hds : (List.range' k (vsum cv)).map rnd =
            rnd k :: (List.range' (k + 1) (vsum (cv.set c v'))).map rnd := by
          rw [hsum', List.range'_succ, List.map_cons]
        have hvb : visitBody oc rnd c w h ⟨g, conn, cv[c], k⟩ = visitDir oc c w h ⟨g, conn, v', k + 1⟩ d := by
          simp [visitBody, hne, hch]
        rw [hds]
        rcases visitDir_spec (oc := oc) (s := ⟨g, conn, v', k + 1⟩) hw hh hn hM hc d with
          ⟨conn', e, hM', hr⟩ | ⟨b, g1, conn', hnb, hr, e, hM', hop⟩
        · -- the direction leads nowhere
          simp only at e hM' hr
          have hO : OInv w h ⟨g, conn', c :: rest, cv.set c v', k + 1⟩ := by
            refine ⟨hM', by simpa using hcv, ?_, hpath, hiso, ?_⟩
            · intro c1 v1 h1
              simp only [List.getElem?_set] at h1
              split at h1
              · next e =>
                subst e
                simp only [hc', if_true, Option.some.injEq] at h1
                subst h1
                intro d1 hd1 m1 hm1
                by_cases hdd : d1 = d
                · subst hdd; exact hr m1 hm1
                · refine hdone c _ hget d1 ?_ m1 hm1
                  intro hmem
                  rcases List.mem_cons.mp (hperm.mem_iff.mpr hmem) with h1 | h1
                  · exact hdd h1
                  · exact hd1 h1
              · exact hdone c1 v1 h1
            · intro c1 hr1
              by_cases e : c1 = c
              · subst e; left; simp
              · rcases hclosed c1 hr1 with h1 | h1
                · exact .inl h1
                · right
                  simp only [List.getElem?_set, if_neg (Ne.symm e)]
                  exact h1
          obtain ⟨o, g', h1, h2⟩ := ih _ (by simp only [List.length_cons] at hm ⊢; omega) _ V rfl hO hVR
          refine ⟨_, g', .skip hget hne hch ?_ h1, ?_⟩
          · intro b hb
            exact (hVR b).mpr (hr0c.trans (hr b hb))
          · rw [← h2]
            refine loop_congr ?_
            have : visitNext oc rnd c w h ⟨g, conn, cv[c], k⟩ = visitNext oc rnd c w h ⟨g, conn', v', k + 1⟩ :=
              loop_inl (by rw [hvb, e])
            simp [backtrackBody, getP_ok hc', this, getP_ok (show c < (cv.set c v').length by simpa using hc'), setP]
        · -- a new cell
          simp only at e hM' hr hop
          have hg1 : g1 = openSide w g c d := visitDir_maze e
          have e1 : backtrackBody oc rnd w h ⟨g, conn, c :: rest, cv, k⟩ =
              .ok (.inl ⟨g1, conn', b :: c :: rest, cv.set c v', k + 1⟩) := by
            have : visitNext oc rnd c w h ⟨g, conn, cv[c], k⟩ = .ok (some b, ⟨g1, conn', v', k + 1⟩) :=
              loop_inr (by rw [hvb, e])
            simp [backtrackBody, getP_ok hc', this, setP_ok hc']
          obtain ⟨s', e2, hO, hT, hlt, hk⟩ := backtrackBody_turn (oc := oc) (rnd := rnd) hw hh hn hI0 (R.refl hpos) rfl
          rw [e1] at e2
          obtain rfl : (⟨g1, conn', b :: c :: rest, cv.set c v', k + 1⟩ : RState) = s' := by simpa using e2
          have hm0 : ¬ R w h g 0 b := fun hx => hr (hr0c.symm.trans hx)
          have hiff : ∀ y, y ∈ b :: V ↔ R w h g1 0 y := by
            intro y
            rw [List.mem_cons, hVR]
            constructor
            · rintro (rfl | hy)
              · exact (hop.reach ..).mpr (.inr (.inl ⟨hr0c, R.refl hop.hb⟩))
              · exact (hop.reach ..).mpr (.inl hy)
            · intro hy
              rcases (hop.reach ..).mp hy with h1 | ⟨_, h1⟩ | ⟨h1, _⟩
              · exact .inr h1
              · rcases hiso b y h1 with e | e
                · exact .inl e.symm
                · exact absurd e hm0
              · exact absurd h1 hm0
          rw [List.length_cons] at hm
          obtain ⟨o, g', h1, h2⟩ := ih (2 * vsum (cv.set c v') + (rest.length + 1 + 1)) (by omega) _ (b :: V) rfl hO hiff
          simp only [hg1] at h1
          refine ⟨_, g', .go hget hne hch hnb (fun hx => hm0 ((hVR b).mp hx)) h1, ?_⟩
          rw [loop_inl e1]; exact h2

/-! ### What is played -/

theorem chooseRandom_perm {α : Type} {r : Nat} {v v' : List α} {d : α} (H : chooseRandom r v = .ok (some d, v')) :
    (d :: v').Perm v := by
  by_cases hv : v = []
  · subst hv; rw [chooseRandom_nil] at H; cases H
  · obtain ⟨_, v1, h1, h2⟩ := chooseRandom_spec r hv
    rw [H] at h1
    simp only [Prog.ok.injEq, Prod.mk.injEq, Option.some.injEq] at h1
    rw [h1.1, h1.2]; exact h2

/-- The orders are orders of the directions to be tried. -/
theorem Plays.perm {ds V g path cv o g'} (H : Plays w h ds V g path cv o g') :
    ∀ c, (o c).Perm (cv.getD c []) := by
  have step : ∀ {cv : List (List MazeDirection)} {c r v d v'} {o : Nat → List MazeDirection},
      cv[c]? = some v → chooseRandom r v = .ok (some d, v') → (∀ x, (o x).Perm ((cv.set c v').getD x [])) →
      ∀ x, (Function.update o c (d :: o c) x).Perm (cv.getD x []) := by
    intro cv c r v d v' o hv hr ih x
    have hc : c < cv.length := (List.getElem?_eq_some_iff.mp hv).1
    have := ih x
    by_cases hx : x = c
    · subst hx
      rw [Function.update_self, List.getD_eq_getElem?_getD, hv]
      rw [List.getD_eq_getElem?_getD, List.getElem?_set_self hc] at this
      exact (this.cons d).trans (chooseRandom_perm hr)
    · rw [Function.update_of_ne hx]
      rwa [List.getD_eq_getElem?_getD, List.getElem?_set_ne (Ne.symm hx), ← List.getD_eq_getElem?_getD] at this
  induction H with
  | @done V g cv hcv =>
    intro c
    rw [List.getD_eq_getElem?_getD]
    cases hc : cv[c]? with
    | none => simp
    | some v => simp [hcv v (List.mem_of_getElem? hc)]
  | pop hv hp ih => exact ih
  | skip hv hne hr hb hp ih => exact step hv hr ih
  | go hv hne hr hb hn hp ih => exact step hv hr ih

theorem Plays.length {ds V g path cv o g'} (H : Plays w h ds V g path cv o g') : ds.length = vsum cv := by
  have step : ∀ {cv : List (List MazeDirection)} {c r v d v'},
      cv[c]? = some v → chooseRandom r v = .ok (some d, v') → vsum cv = vsum (cv.set c v') + 1 := by
    intro cv c r v d v' hv hr
    obtain ⟨hc, rfl⟩ := List.getElem?_eq_some_iff.mp hv
    have := vsum_set cv c v' hc
    have := (chooseRandom_perm hr).length_eq
    simp only [List.length_cons] at this
    omega
  induction H with
  | done hcv =>
    symm
    unfold vsum
    rw [List.length_nil, List.sum_eq_zero_iff]
    intro a ha
    obtain ⟨v, hv, rfl⟩ := List.mem_map.mp ha
    simp [hcv v hv]
  | pop hv hp ih => exact ih
  | skip hv hne hr hb hp ih => rw [step hv hr, List.length_cons, ih]
  | go hv hne hr hb hn hp ih => rw [step hv hr, List.length_cons, ih]

/-- The draws determine the orders and the walls. -/
theorem Plays.det {ds V g path cv o g' o' g''} (H : Plays w h ds V g path cv o g')
    (H' : Plays w h ds V g path cv o' g'') : o = o' ∧ g' = g'' := by
  induction H generalizing o' g'' with
  | done hcv => cases H'; exact ⟨rfl, rfl⟩
  | pop hv hp ih =>
    cases H' with
    | pop hv' hp' => exact ih hp'
    | skip hv' hne' => rw [hv] at hv'; exact absurd (Option.some.inj hv').symm hne'
    | go hv' hne' => rw [hv] at hv'; exact absurd (Option.some.inj hv').symm hne'
  | skip hv hne hr hb hp ih =>
    cases H' with
    | pop hv' hp' => rw [hv] at hv'; exact absurd (Option.some.inj hv') hne
    | skip hv' hne' hr' hb' hp' =>
      rw [hv] at hv'; obtain rfl := Option.some.inj hv'
      rw [hr] at hr'
      simp only [Prog.ok.injEq, Prod.mk.injEq, Option.some.injEq] at hr'
      obtain ⟨rfl, rfl⟩ := hr'
      obtain ⟨rfl, rfl⟩ := ih hp'
      exact ⟨rfl, rfl⟩
    | go hv' hne' hr' hb' hn' hp' =>
      rw [hv] at hv'; obtain rfl := Option.some.inj hv'
      rw [hr] at hr'
      simp only [Prog.ok.injEq, Prod.mk.injEq, Option.some.injEq] at hr'
      obtain ⟨rfl, rfl⟩ := hr'
      exact absurd (hb _ hb') hn'
  | go hv hne hr hb hn hp ih =>
    cases H' with
    | pop hv' hp' => rw [hv] at hv'; exact absurd (Option.some.inj hv') hne
    | skip hv' hne' hr' hb' hp' =>
      rw [hv] at hv'; obtain rfl := Option.some.inj hv'
      rw [hr] at hr'
      simp only [Prog.ok.injEq, Prod.mk.injEq, Option.some.injEq] at hr'
      obtain ⟨rfl, rfl⟩ := hr'
      exact absurd (hb' _ hb) hn
    | go hv' hne' hr' hb' hn' hp' =>
      rw [hv] at hv'; obtain rfl := Option.some.inj hv'
      rw [hr] at hr'
      simp only [Prog.ok.injEq, Prod.mk.injEq, Option.some.injEq] at hr'
      obtain ⟨rfl, rfl⟩ := hr'
      rw [hb] at hb'; obtain rfl := Option.some.inj hb'
      obtain ⟨rfl, rfl⟩ := ih hp'
      exact ⟨rfl, rfl⟩

/-! ### The recursive search -/

theorem Spec.Explores.subset {ord c ds s t} (H : Explores w h ord c ds s t) : s.1 ⊆ t.1 := by
  induction H with
  | nil => exact fun _ h => h
  | skip _ _ ih => exact ih
  | enter _ _ _ _ ih1 ih2 => exact fun x hx => ih2 (ih1 (List.mem_cons_of_mem _ hx))

/-- The orders of visited cells are not looked at any more. -/
theorem Spec.Explores.congr {ord ord' c ds s t} (H : Explores w h ord c ds s t) (he : ∀ x, x ∉ s.1 → ord x = ord' x) :
    Explores w h ord' c ds s t := by
  induction H with
  | nil => exact .nil _ _
  | skip hb _ ih => exact .skip hb (ih he)
  | enter hb hn h1 _ ih1 ih2 =>
    refine .enter hb hn ?_ (ih2 fun x hx => he x fun hx' => hx (h1.subset (List.mem_cons_of_mem _ hx')))
    rw [← he _ hn]
    exact ih1 fun x hx => he x fun hx' => hx (List.mem_cons_of_mem _ hx')

theorem Spec.Explores.det {ord c ds s t t'} (H : Explores w h ord c ds s t) (H' : Explores w h ord c ds s t') :
    t = t' := by
  induction H generalizing t' with
  | nil => cases H'; rfl
  | skip hb _ ih =>
    cases H' with
    | skip _ ht => exact ih ht
    | enter hb' hn' => exact absurd (hb _ hb') hn'
  | enter hb hn h1 _ ih1 ih2 =>
    cases H' with
    | skip hb' => exact absurd (hb' _ hb) hn
    | enter hb' hn' h1' ht' =>
      rw [hb] at hb'; obtain rfl := Option.some.inj hb'
      obtain rfl := ih1 h1'
      exact ih2 ht'

/-- Finish the search for all cells of the path. -/
inductive Finishes (w h : Nat) (ord : Nat → List MazeDirection) :
    List Nat → List Nat × List MazeNode → List Nat × List MazeNode → Prop
  | nil (s) : Finishes w h ord [] s s
  | cons {c rest s s1 t} (h1 : Explores w h ord c (ord c) s s1) (ht : Finishes w h ord rest s1 t) :
      Finishes w h ord (c :: rest) s t

theorem Finishes.congr {ord ord' path s t} (H : Finishes w h ord path s t) (he : ∀ x, x ∉ s.1 → ord x = ord' x)
    (hp : ∀ x ∈ path, ord x = ord' x) : Finishes w h ord' path s t := by
  induction H with
  | nil => exact .nil _
  | cons h1 _ ih =>
    refine .cons ?_ (ih (fun x hx => he x fun hx' => hx (h1.subset hx')) fun x hx => hp x (by simp [hx]))
    rw [← hp _ (by simp)]
    exact h1.congr he

theorem Plays.finishes {ds V g path cv o g'} (H : Plays w h ds V g path cv o g') (hnd : path.Nodup)
    (hV : ∀ x ∈ path, x ∈ V) : ∃ V', Finishes w h o path (V, g) (V', g') := by
  induction H with
  | done hcv => exact ⟨_, .nil _⟩
  | @pop ds V g c rest cv o g' hv hp ih =>
    obtain ⟨V', h1⟩ := ih (List.nodup_cons.mp hnd).2 fun x hx => hV x (by simp [hx])
    refine ⟨V', .cons (s1 := (V, g)) ?_ h1⟩
    have := hp.perm c
    rw [List.getD_eq_getElem?_getD, hv] at this
    rw [show o c = [] from this.eq_nil]
    exact .nil _ _
  | @skip r ds V g c rest cv v d v' o g' hv hne hr hb hp ih =>
    obtain ⟨V', h1⟩ := ih hnd hV
    have hupd : ∀ x, x ≠ c → o x = Function.update o c (d :: o c) x := fun x hx => by rw [Function.update_of_ne hx]
    have hcV : c ∈ V := hV c (by simp)
    cases h1 with
    | cons h1 h2 =>
      refine ⟨V', .cons ?_ (h2.congr ?_ ?_)⟩
      · rw [Function.update_self]
        exact .skip hb (h1.congr fun x hx => hupd x fun e => hx (e ▸ hcV))
      · exact fun x hx => hupd x fun e => hx (h1.subset (e ▸ hcV))
      · exact fun x hx => hupd x fun e => (List.nodup_cons.mp hnd).1 (e ▸ hx)
  | @go r ds V g c rest cv v d v' b o g' hv hne hr hb hn hp ih =>
    have hcV : c ∈ V := hV c (by simp)
    have hbp : b ∉ c :: rest := fun hx => hn (hV b hx)
    obtain ⟨V', h1⟩ := ih (List.nodup_cons.mpr ⟨hbp, hnd⟩) (by
      intro x hx
      rcases List.mem_cons.mp hx with rfl | hx
      · simp
      · exact List.mem_cons_of_mem _ (hV x hx))
    have hupd : ∀ x, x ≠ c → o x = Function.update o c (d :: o c) x := fun x hx => by rw [Function.update_of_ne hx]
    cases h1 with
    | cons h1 h2 =>
      cases h2 with
      | cons h2 h3 =>
        have c1 : c ∈ _ := h1.subset (List.mem_cons_of_mem _ hcV)
        refine ⟨V', .cons ?_ (h3.congr ?_ ?_)⟩
        · rw [Function.update_self]
          refine .enter hb hn ?_ (h2.congr fun x hx => hupd x fun e => hx (e ▸ c1))
          have hbc : b ≠ c := fun e => hbp (by simp [e])
          rw [← hupd b hbc]
          exact h1.congr fun x hx => hupd x fun e => hx (by subst e; exact List.mem_cons_of_mem _ hcV)
        · exact fun x hx => hupd x fun e => hx (h2.subset (e ▸ c1))
        · exact fun x hx => hupd x fun e => (List.nodup_cons.mp hnd).1 (e ▸ hx)

/-! ### Counting draws -/

theorem card_mod {N L i : Nat} (hL : L ∣ N) (hi : i < L) : Nat.card {r : Fin N // r.1 % L = i} * L = N := by
  have h0 : 0 < L := by omega
  have h1 : Nat.card {r : Fin N // r.1 % L = i} = N.count (· ≡ i [MOD L]) := by
    rw [Nat.count_eq_card_filter_range, Nat.card_eq_fintype_card, Fintype.card_subtype]
    refine Finset.card_bij (fun r _ => r.1) ?_ ?_ ?_
    · intro r hr
      simp only [Finset.mem_filter, Finset.mem_univ, true_and] at hr
      simp [Nat.ModEq, hr, Nat.mod_eq_of_lt hi]
    · intro a _ b _ hab
      exact Fin.ext hab
    · intro r hr
      simp only [Finset.mem_filter, Finset.mem_range, Nat.ModEq, Nat.mod_eq_of_lt hi] at hr
      exact ⟨⟨r, hr.1⟩, by simp [hr.2], rfl⟩
  rw [h1, Nat.count_modEq_card _ h0, Nat.mod_eq_zero_of_dvd hL]
  simp [Nat.div_mul_cancel hL]

/-- The draws `d` as a list. -/
def drawList {m N : Nat} (d : Fin m → Fin N) : List Nat := List.ofFn fun i => (d i).1

theorem drawList_succ {m N : Nat} (d : Fin (m + 1) → Fin N) :
    drawList d = (d 0).1 :: drawList (fun i : Fin m => d i.succ) := by
  simp [drawList, List.ofFn_succ]

theorem card_step {m N L i : Nat} {S : (Fin (m + 1) → Fin N) → Prop} {B : (Fin m → Fin N) → Prop}
    (H : ∀ d, S d → (d 0).1 % L = i ∧ B fun j => d j.succ) :
    Nat.card {d // S d} ≤ Nat.card {r : Fin N // r.1 % L = i} * Nat.card {d // B d} := by
  rw [← Nat.card_prod]
  refine Nat.card_le_card_of_injective
    (fun d => (⟨d.1 0, (H d.1 d.2).1⟩, ⟨fun j => d.1 j.succ, (H d.1 d.2).2⟩)) ?_
  rintro ⟨d, hd⟩ ⟨d', hd'⟩ he
  simp only [Prod.mk.injEq, Subtype.mk.injEq] at he ⊢
  funext j
  refine Fin.cases he.1 (fun j => congrFun he.2 j) j

theorem chooseRandom_same {α : Type} {r r' : Nat} {v v' v'' : List α} {d : α} (hv : v.Nodup)
    (H : chooseRandom r v = .ok (some d, v')) (H' : chooseRandom r' v = .ok (some d, v'')) :
    r % v.length = r' % v.length ∧ v' = v'' := by
  have hne : v ≠ [] := by rintro rfl; rw [chooseRandom_nil] at H; cases H
  have h0 : v.length ≠ 0 := by simpa using hne
  obtain ⟨h1, v1, e1, _⟩ := chooseRandom_spec r hne
  obtain ⟨h2, v2, e2, _⟩ := chooseRandom_spec r' hne
  have hmod : r % v.length = r' % v.length := by
    rw [H] at e1
    rw [H'] at e2
    simp only [Prog.ok.injEq, Prod.mk.injEq, Option.some.injEq] at e1 e2
    exact (List.Nodup.getElem_inj_iff hv).mp (e1.1.symm.trans e2.1)
  have : chooseRandom r v = chooseRandom r' v := by simp [chooseRandom, chooseIdx, h0, hmod]
  rw [H, H'] at this
  simpa [hmod] using this

theorem directions_length {v : List MazeDirection} (hv : v.Nodup) : v.length ≤ 4 := by
  have : v ⊆ directions := fun d _ => by cases d <;> simp [directions]
  exact (hv.subperm this).length_le

/-- Weight of the orders still to be played. -/
def orderings (n : Nat) (o : Nat → List MazeDirection) : Nat := ∏ c ∈ Finset.range n, (o c).length.factorial

theorem orderings_update {n c : Nat} {o : Nat → List MazeDirection} {d : MazeDirection} (hc : c < n) :
    orderings n (Function.update o c (d :: o c)) = ((o c).length + 1) * orderings n o := by
  unfold orderings
  have hc' : c ∈ Finset.range n := Finset.mem_range.mpr hc
  rw [← Finset.mul_prod_erase _ _ hc', ← Finset.mul_prod_erase (a := c) _ (fun x => (o x).length.factorial) hc']
  rw [Function.update_self, List.length_cons, Nat.factorial_succ, Nat.mul_assoc]
  congr 2
  refine Finset.prod_congr rfl fun x hx => ?_
  rw [Function.update_of_ne (Finset.ne_of_mem_erase hx)]

theorem Plays.cons_inv {r ds V g c rest cv o g' v} (H : Plays w h (r :: ds) V g (c :: rest) cv o g')
    (hv : cv[c]? = some v) (hne : v ≠ []) :
    ∃ d v' o1, chooseRandom r v = .ok (some d, v') ∧ o = Function.update o1 c (d :: o1 c) ∧
      (((∀ b, nbr w h c d = some b → b ∈ V) ∧ Plays w h ds V g (c :: rest) (cv.set c v') o1 g') ∨
        ∃ b, nbr w h c d = some b ∧ b ∉ V ∧
          Plays w h ds (b :: V) (openSide w g c d) (b :: c :: rest) (cv.set c v') o1 g') := by
  generalize hds : r :: ds = l at H
  generalize hpa : c :: rest = p at H
  cases H with
  | done => cases hpa
  | pop hv' =>
    cases hpa
    rw [hv] at hv'
    exact absurd (Option.some.inj hv') hne
  | skip hv' hne' hr hb hp =>
    cases hpa; cases hds
    rw [hv] at hv'
    obtain rfl := Option.some.inj hv'
    exact ⟨_, _, _, hr, rfl, .inl ⟨hb, hp⟩⟩
  | go hv' hne' hr hb hn hp =>
    cases hpa; cases hds
    rw [hv] at hv'
    obtain rfl := Option.some.inj hv'
    exact ⟨_, _, _, hr, rfl, .inr ⟨_, hb, hn, hp⟩⟩

theorem Plays.pop_inv {ds V g c rest cv o g'} (H : Plays w h ds V g (c :: rest) cv o g')
    (hv : cv[c]? = some []) : Plays w h ds V g rest cv o g' := by
  cases H with
  | pop _ hp => exact hp
  | skip hv' hne' => rw [hv] at hv'; exact absurd (Option.some.inj hv').symm hne'
  | go hv' hne' => rw [hv] at hv'; exact absurd (Option.some.inj hv').symm hne'

theorem update_cons_inj {o1 o2 : Nat → List MazeDirection} {c : Nat} {d1 d2 : MazeDirection}
    (H : Function.update o1 c (d1 :: o1 c) = Function.update o2 c (d2 :: o2 c)) : d1 = d2 ∧ o1 = o2 := by
  have h1 := congrFun H c
  rw [Function.update_self, Function.update_self, List.cons.injEq] at h1
  refine ⟨h1.1, funext fun x => ?_⟩
  by_cases hx : x = c
  · rw [hx]; exact h1.2
  · have := congrFun H x
    rwa [Function.update_of_ne hx, Function.update_of_ne hx] at this

theorem card_plays {N : Nat} (hN : 12 ∣ N) : ∀ (m : Nat) (path : List Nat) (V : List Nat) (g : List MazeNode)
    (cv : List (List MazeDirection)) (o : Nat → List MazeDirection), (∀ v ∈ cv, v.Nodup) →
    Nat.card {d : Fin m → Fin N // ∃ g', Plays w h (drawList d) V g path cv o g'} * orderings cv.length o ≤ N ^ m := by
  intro m
  induction m with
  | zero =>
    intro path V g cv o hcv
    by_cases hex : ∃ (d : Fin 0 → Fin N) (g' : List MazeNode), Plays w h (drawList d) V g path cv o g'
    · obtain ⟨d, g', hp⟩ := hex
      have hz : ∀ c, o c = [] := by
        intro c
        have hl := hp.length
        simp only [drawList, List.ofFn_zero, List.length_nil] at hl
        have hpm := (hp.perm c).length_eq
        have : (cv.getD c []).length ≤ vsum cv := by
          rw [List.getD_eq_getElem?_getD]
          by_cases hc : c < cv.length
          · rw [List.getElem?_eq_getElem hc]; exact le_vsum hc
          · rw [List.getElem?_eq_none (Nat.le_of_not_lt hc)]; simp
        exact List.length_eq_zero_iff.mp (by omega)
      have h1 : orderings cv.length o = 1 := by simp [orderings, hz]
      have h2 : Nat.card {d : Fin 0 → Fin N // ∃ g', Plays w h (drawList d) V g path cv o g'} ≤ 1 := by
        refine Finite.card_le_one_iff_subsingleton.mpr ⟨fun a b => Subtype.ext (funext fun i => i.elim0)⟩
      rw [h1]; simpa using h2
    · have : IsEmpty {d : Fin 0 → Fin N // ∃ g', Plays w h (drawList d) V g path cv o g'} :=
        ⟨fun d => hex ⟨d.1, d.2⟩⟩
      simp
  | succ m ihm =>
    intro path
    induction path with
    | nil =>
      intro V g cv o hcv
      have : IsEmpty {d : Fin (m + 1) → Fin N // ∃ g', Plays w h (drawList d) V g [] cv o g'} := by
        refine ⟨?_⟩
        rintro ⟨d, g', hp⟩
        rw [drawList_succ] at hp
        cases hp
      simp
    | cons c rest ihp =>
      intro V g cv o hcv
      by_cases hex : ∃ (d : Fin (m + 1) → Fin N) (g' : List MazeNode), Plays w h (drawList d) V g (c :: rest) cv o g'
      swap
      · have : IsEmpty {d : Fin (m + 1) → Fin N // ∃ g', Plays w h (drawList d) V g (c :: rest) cv o g'} :=
          ⟨fun d => hex ⟨d.1, d.2⟩⟩
        simp
      obtain ⟨d0, g0, hp0⟩ := hex
      rw [drawList_succ] at hp0
      -- the common part of the two cases with a draw
      have fin : ∀ {v v' d o1 r} {V' g' path'}, cv[c]? = some v → chooseRandom r v = .ok (some d, v') →
          o = Function.update o1 c (d :: o1 c) → (∀ x, (o x).Perm (cv.getD x [])) →
          (∀ dd : Fin (m + 1) → Fin N, (∃ g1, Plays w h (drawList dd) V g (c :: rest) cv o g1) →
            (dd 0).1 % v.length = r % v.length ∧
            ∃ g1, Plays w h (drawList fun j : Fin m => dd j.succ) V' g' path' (cv.set c v') o1 g1) →
          Nat.card {d : Fin (m + 1) → Fin N // ∃ g', Plays w h (drawList d) V g (c :: rest) cv o g'} *
            orderings cv.length o ≤ N ^ (m + 1) := by
        intro v v' d o1 r V' g' path' hv hr ho hperm H
        obtain ⟨hc, rfl⟩ := List.getElem?_eq_some_iff.mp hv
        have hnd := hcv _ (List.getElem_mem hc)
        have hlen : (o1 c).length + 1 = cv[c].length := by
          have := (hperm c).length_eq
          rw [ho, Function.update_self, List.getD_eq_getElem?_getD, hv] at this
          simpa using this
        have h4 := directions_length hnd
        have hdvd : cv[c].length ∣ N := by
          refine Nat.dvd_trans ?_ hN
          have : cv[c].length = 1 ∨ cv[c].length = 2 ∨ cv[c].length = 3 ∨ cv[c].length = 4 := by omega
          rcases this with e | e | e | e <;> rw [e] <;> decide
        have hA := card_mod hdvd (Nat.mod_lt r (show 0 < cv[c].length by omega))
        have hB := ihm path' V' g' (cv.set c v') o1 (by
          intro x hx
          rcases List.mem_or_eq_of_mem_set hx with hx | rfl
          · exact hcv x hx
          · exact (List.nodup_cons.mp ((chooseRandom_perm hr).nodup_iff.mpr hnd)).2)
        rw [List.length_set] at hB
        have hS := card_step (S := fun dd : Fin (m + 1) → Fin N => ∃ g1, Plays w h (drawList dd) V g (c :: rest) cv o g1)
          (B := fun dd : Fin m → Fin N => ∃ g1, Plays w h (drawList dd) V' g' path' (cv.set c v') o1 g1) H
        rw [ho, orderings_update hc, hlen, ← ho]
        calc _ ≤ (Nat.card {r1 : Fin N // r1.1 % cv[c].length = r % cv[c].length} *
              Nat.card {d : Fin m → Fin N // ∃ g1, Plays w h (drawList d) V' g' path' (cv.set c v') o1 g1}) *
              (cv[c].length * orderings cv.length o1) := Nat.mul_le_mul_right _ hS
          _ = (Nat.card {r1 : Fin N // r1.1 % cv[c].length = r % cv[c].length} * cv[c].length) *
              (Nat.card {d : Fin m → Fin N // ∃ g1, Plays w h (drawList d) V' g' path' (cv.set c v') o1 g1} *
                orderings cv.length o1) := by ring
          _ ≤ N * N ^ m := by rw [hA]; exact Nat.mul_le_mul_left _ hB
          _ = N ^ (m + 1) := by ring
      have hperm := hp0.perm
      cases hv : cv[c]? with
      | none =>
        cases hp0 with
        | pop hv' => rw [hv] at hv'; cases hv'
        | skip hv' => rw [hv] at hv'; cases hv'
        | go hv' => rw [hv] at hv'; cases hv'
      | some v =>
        by_cases hne : v = []
        · subst hne
          refine Nat.le_trans (Nat.mul_le_mul_right _ ?_) (ihp V g cv o hcv)
          refine Nat.card_le_card_of_injective
            (fun d => ⟨d.1, d.2.choose, d.2.choose_spec.pop_inv hv⟩) ?_
          intro a b hab
          simpa [Subtype.ext_iff] using hab
        · obtain ⟨hc, rfl⟩ := List.getElem?_eq_some_iff.mp hv
          have hnd := hcv _ (List.getElem_mem hc)
          obtain ⟨d, v', o1, hr, ho, hcase⟩ := hp0.cons_inv hv hne
          rcases hcase with ⟨hb, hp⟩ | ⟨b, hb, hn, hp⟩
          · refine fin hv hr ho hperm ?_ (V' := V) (g' := g) (path' := c :: rest)
            rintro dd ⟨g1, hd⟩
            rw [drawList_succ] at hd
            obtain ⟨d2, v2, o2, hr2, ho2, hcase2⟩ := hd.cons_inv hv hne
            obtain ⟨rfl, rfl⟩ := update_cons_inj (ho.symm.trans ho2)
            obtain ⟨hm, rfl⟩ := chooseRandom_same hnd hr hr2
            rcases hcase2 with ⟨_, hp2⟩ | ⟨b2, hb2, hn2, _⟩
            · exact ⟨hm.symm, g1, hp2⟩
            · exact absurd (hb _ hb2) hn2
          · refine fin hv hr ho hperm ?_ (V' := b :: V) (g' := openSide w g c d) (path' := b :: c :: rest)
            rintro dd ⟨g1, hd⟩
            rw [drawList_succ] at hd
            obtain ⟨d2, v2, o2, hr2, ho2, hcase2⟩ := hd.cons_inv hv hne
            obtain ⟨rfl, rfl⟩ := update_cons_inj (ho.symm.trans ho2)
            obtain ⟨hm, rfl⟩ := chooseRandom_same hnd hr hr2
            rcases hcase2 with ⟨hb2, _⟩ | ⟨b2, hb2, hn2, hp2⟩
            · exact absurd (hb2 _ hb) hn
            · rw [hb] at hb2
              obtain rfl := Option.some.inj hb2
              exact ⟨hm.symm, g1, hp2⟩

/-! ### All draws together -/

theorem orders_card : Nat.card {l : List MazeDirection // l.Perm directions} = 24 := by
  rw [Nat.subtype_card directions.permutations'.toFinset]
  · decide
  · intro l
    rw [List.mem_toFinset, List.mem_permutations']

instance : Finite {l : List MazeDirection // l.Perm directions} :=
  Nat.finite_of_card_ne_zero (by rw [orders_card]; decide)

theorem drawSeq_list {m N : Nat} (d : Fin m → Fin N) : (List.range' 0 m).map (drawSeq d) = drawList d := by
  refine List.ext_getElem (by simp [drawList]) fun i h1 h2 => ?_
  have : i < m := by simpa using h1
  simp [drawList, drawSeq, this]

/-- The order in which every cell tries its directions. -/
theorem exists_orders (oc : Bool) (hw : 0 < w) (hh : 0 < h) (hn : w * h * 24 < 2 ^ 63) {N : Nat}
    (d : Fin (4 * (w * h)) → Fin N) :
    ∃ (f : Orders w h) (g : List MazeNode),
      Plays w h (drawList d) [0] (initState w h).maze [0] (initState w h).canVisit f.at g ∧
      recursiveBacktrack oc (drawSeq d) w h = .ok g ∧ MadeBy w h f.at g := by
  have hpos : 0 < w * h := Nat.mul_pos hw hh
  obtain ⟨o, g, h1, h2⟩ := backtrack_plays oc (drawSeq d) hw hh (by omega) _ (initState w h) [0] rfl (init_oinv hpos)
    (by
      intro x
      constructor
      · intro hx
        simp at hx; subst hx; exact R.refl hpos
      · intro hx
        rw [← R_bot (graph_new w h (w * h)) hx]; simp)
  have hv : vsum (initState w h).canVisit = 4 * (w * h) := by
    simp [initState, vsum_replicate]; omega
  rw [hv, show (initState w h).k = 0 from rfl, drawSeq_list] at h1
  have hperm := h1.perm
  have hget : ∀ c, (initState w h).canVisit.getD c [] = if c < w * h then directions else [] := by
    intro c
    rw [List.getD_eq_getElem?_getD, initState, List.getElem?_replicate]
    split <;> rfl
  let f : Orders w h := fun c => ⟨o c, by have := hperm c; rw [hget, if_pos c.2] at this; exact this⟩
  have hf : f.at = o := by
    funext c
    unfold Orders.at
    split
    · rfl
    · next hc =>
      have := hperm c
      rw [hget, if_neg hc] at this
      exact this.eq_nil.symm
  refine ⟨f, g, by rw [hf]; exact h1, by rw [recursiveBacktrack_eq oc _ hn, h2], ?_⟩
  rw [hf]
  obtain ⟨V, hV⟩ := h1.finishes (by simp [initState]) (by simp [initState])
  cases hV with
  | cons h1 h2 =>
    cases h2
    exact ⟨_, h1⟩

theorem Spec.Orders.at_inj {f f' : Orders w h} (H : f.at = f'.at) : f = f' := by
  funext c
  have := congrFun H c
  simpa [Orders.at, Subtype.ext_iff] using this

theorem Spec.MadeBy.det {ord : Nat → List MazeDirection} {g g' : List MazeNode} (H : MadeBy w h ord g)
    (H' : MadeBy w h ord g') : g = g' := by
  obtain ⟨V, h1⟩ := H
  obtain ⟨V', h2⟩ := H'
  exact congrArg Prod.snd (h1.det h2)

theorem orders_uniform (oc : Bool) (hw : 0 < w) (hh : 0 < h) (hn : w * h * 24 < 2 ^ 63) {N : Nat} (hN : 12 ∣ N) :
    ∃ φ : (Fin (4 * (w * h)) → Fin N) → Orders w h,
      (∀ d, ∃ g, recursiveBacktrack oc (drawSeq d) w h = .ok g ∧ MadeBy w h (φ d).at g) ∧
      ∀ f, Nat.card {d // φ d = f} * 24 ^ (w * h) = N ^ (4 * (w * h)) := by
  classical
  choose φ G hP hR hS using fun d => exists_orders oc hw hh hn (N := N) d
  refine ⟨φ, fun d => ⟨G d, hR d, hS d⟩, ?_⟩
  have : Fintype (Orders w h) := Fintype.ofFinite _
  have hO : Fintype.card (Orders w h) = 24 ^ (w * h) := by
    rw [← Nat.card_eq_fintype_card, Nat.card_fun, orders_card]
    simp
  have hle : ∀ f, Nat.card {d // φ d = f} * 24 ^ (w * h) ≤ N ^ (4 * (w * h)) := by
    intro f
    have := card_plays (w := w) (h := h) hN (4 * (w * h)) [0] [0] (initState w h).maze (initState w h).canVisit f.at (by
      intro v hv
      rw [initState, List.mem_replicate] at hv
      rw [hv.2]; decide)
    have ho : orderings (initState w h).canVisit.length f.at = 24 ^ (w * h) := by
      unfold orderings
      rw [show (initState w h).canVisit.length = w * h by simp [initState]]
      rw [Finset.prod_congr rfl (g := fun _ => 24)]
      · simp
      · intro c hc
        rw [Finset.mem_range] at hc
        have := (f ⟨c, hc⟩).2.length_eq
        simp only [Orders.at, hc, dif_pos, this]
        rfl
    rw [ho] at this
    refine Nat.le_trans (Nat.mul_le_mul_right _ ?_) this
    refine Nat.card_le_card_of_injective (fun d => ⟨d.1, G d.1, by have := hP d.1; rw [d.2] at this; exact this⟩) ?_
    intro a b hab
    simpa [Subtype.ext_iff] using hab
  have hsum : ∑ f, Nat.card {d // φ d = f} * 24 ^ (w * h) = ∑ _f : Orders w h, N ^ (4 * (w * h)) := by
    rw [← Finset.sum_mul, Finset.sum_const, Finset.card_univ, hO, smul_eq_mul, Nat.mul_comm]
    congr 1
    have := Finset.card_eq_sum_card_fiberwise (f := φ) (s := Finset.univ) (t := Finset.univ) (by simp)
    simp only [Finset.card_univ, Fintype.card_fun, Fintype.card_fin] at this
    rw [this]
    refine Finset.sum_congr rfl fun f _ => ?_
    rw [Nat.card_eq_fintype_card, Fintype.card_subtype]
  exact fun f => (Finset.sum_eq_sum_iff_of_le fun f _ => hle f).mp hsum f (Finset.mem_univ f)

end Maze
