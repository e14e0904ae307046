import Verif.Proofs.Maze.Bfs
import Mathlib.Data.Finset.Card
import Mathlib.Order.Interval.Finset.Nat

/-! `create_maze` when `width * height` wraps around (no overflow checks): it always panics. -/
namespace Maze

/-- `p` panics, or returns a value with `Q`; it neither runs forever nor is undefined. -/
def Ends {α : Type} (p : Prog α) (Q : α → Prop) : Prop := p = .panic ∨ ∃ a, p = .ok a ∧ Q a

theorem Ends.ok {α : Type} {a : α} {Q : α → Prop} (h : Q a) : Ends (.ok a) Q := .inr ⟨a, rfl, h⟩
theorem Ends.panic {α : Type} {Q : α → Prop} : Ends (.panic : Prog α) Q := .inl rfl

theorem Ends.bind {α β : Type} {p : Prog α} {f : α → Prog β} {Q : α → Prop} {R : β → Prop} (h : Ends p Q)
    (hf : ∀ a, Q a → Ends (f a) R) : Ends (p >>= f) R := by
  rcases h with rfl | ⟨a, rfl, ha⟩
  · exact .inl rfl
  · exact hf a ha

theorem Ends.mono {α : Type} {p : Prog α} {Q R : α → Prop} (h : Ends p Q) (hf : ∀ a, Q a → R a) : Ends p R := by
  rcases h with rfl | ⟨a, rfl, ha⟩
  · exact .inl rfl
  · exact .inr ⟨a, rfl, hf a ha⟩

theorem Ends.loop {σ α : Type} {body : σ → Prog (σ ⊕ α)} (I : σ → Prop) (m : σ → Nat) (Q : α → Prop)
    (step : ∀ s, I s → Ends (body s) fun r => match r with | .inl s' => I s' ∧ m s' < m s | .inr a => Q a)
    (s : σ) (hs : I s) : Ends (loop body s) Q := by
  generalize hn : m s = n
  induction n using Nat.strongRecOn generalizing s with
  | ind n ih =>
    rcases step s hs with hb | ⟨r, hb, hr⟩
    · exact .inl (loop_panic hb)
    · cases r with
      | inl s' => rw [loop_inl hb]; exact ih (m s') (hn ▸ hr.2) s' hr.1 rfl
      | inr a => exact .inr ⟨a, loop_inr hb, hr⟩

theorem ends_getP {α : Type} (v : List α) (i : Nat) : Ends (getP v i) fun a => v[i]? = some a := by
  unfold getP
  split
  · rename_i a h; exact .ok h
  · exact .panic

theorem ends_setP {α : Type} (v : List α) (i : Nat) (a : α) :
    Ends (setP v i a) fun v' => i < v.length ∧ v' = v.set i a := by
  unfold setP
  split
  · rename_i h; exact .ok ⟨h, rfl⟩
  · exact .panic

theorem ends_expectP {α : Type} (o : Option α) : Ends (expectP o) fun a => o = some a := by
  cases o
  · exact .panic
  · exact .ok rfl

theorem ends_addW (oc : Bool) (bits a b : Nat) : Ends (addW oc bits a b) fun _ => True := by
  unfold addW; split
  · exact .ok trivial
  · split
    · exact .panic
    · exact .ok trivial

theorem ends_mulW (oc : Bool) (bits a b : Nat) : Ends (mulW oc bits a b) fun _ => True := by
  unfold mulW; split
  · exact .ok trivial
  · split
    · exact .panic
    · exact .ok trivial

theorem ends_subW (oc : Bool) (bits a b : Nat) : Ends (subW oc bits a b) fun _ => True := by
  unfold subW; split
  · exact .ok trivial
  · split
    · exact .panic
    · exact .ok trivial

/-- The disjoint set is in order. -/
def DOk (s : DisjointSet.DSU) : Prop := ∃ rep rank, DisjointSet.Inv s rep rank

theorem ends_commonSet {s : DisjointSet.DSU} (hs : DOk s) (i j : Nat) :
    Ends (DisjointSet.commonSet s i j) fun r => DOk r.2 := by
  obtain ⟨rep, rank, hI⟩ := hs
  by_cases hij : i < s.length ∧ j < s.length
  · obtain ⟨s', e, hI', _⟩ := DisjointSet.commonSet_spec hI hij.1 hij.2
    rw [e]; exact .ok ⟨rep, rank, hI'⟩
  · obtain ⟨s', e, hI', _⟩ := DisjointSet.commonSet_none hI (i := i) (j := j) (by omega)
    rw [e]; exact .ok ⟨rep, rank, hI'⟩

theorem ends_union {s : DisjointSet.DSU} (hs : DOk s) (i j : Nat) :
    Ends (DisjointSet.union s i j) fun r => DOk r.2 := by
  obtain ⟨rep, rank, hI⟩ := hs
  by_cases hij : i < s.length ∧ j < s.length
  · obtain ⟨r, s', rep', rank', e, hI', _⟩ := DisjointSet.union_spec hI hij.1 hij.2
    rw [e]; exact .ok ⟨rep', rank', hI'⟩
  · obtain ⟨s', e, hI', _⟩ := DisjointSet.union_none hI (i := i) (j := j) (by omega)
    rw [e]; exact .ok ⟨rep, rank, hI'⟩

/-! ### The random search ends -/

/-- What one turn of `visit_next` leaves behind, for whatever geometry. -/
def Kept (s : VState) : VState ⊕ (Option Nat × VState) → Prop
  | .inl t => t.visitable = s.visitable ∧ DOk t.conn
  | .inr (_, t) => t.visitable = s.visitable ∧ DOk t.conn

theorem ends_tryOpen {s : VState} (hs : DOk s.conn) (c next o : Nat) (opn : MazeNode → MazeNode) :
    Ends (tryOpen s c next o opn) (Kept s) := by
  unfold tryOpen
  refine (ends_commonSet hs c next).bind ?_
  rintro ⟨cm, conn⟩ hc
  refine (ends_expectP _).bind fun b _ => ?_
  cases b with
  | true => simp only [if_true]; exact .ok ⟨rfl, hc⟩
  | false =>
    simp only [Bool.false_eq_true, if_false]
    refine (ends_getP _ _).bind fun node _ => (ends_setP _ _ _).bind fun maze _ => (ends_union hc c next).bind ?_
    rintro ⟨u, conn'⟩ hc'
    refine (ends_expectP _).bind fun _ _ => .ok ⟨rfl, hc'⟩

theorem ends_visitDir (oc : Bool) {s : VState} (hs : DOk s.conn) (c w h : Nat) (d : MazeDirection) :
    Ends (visitDir oc c w h s d) (Kept s) := by
  cases d <;> simp only [visitDir]
  · split
    · exact .panic
    · refine (ends_subW _ _ _ _).bind fun _ _ => ?_
      split
      · exact .ok ⟨rfl, hs⟩
      · exact (ends_addW _ _ _ _).bind fun _ _ => ends_tryOpen hs ..
  · refine (ends_subW _ _ _ _).bind fun _ _ => (ends_mulW _ _ _ _).bind fun _ _ => ?_
    split
    · exact .ok ⟨rfl, hs⟩
    · exact (ends_addW _ _ _ _).bind fun _ _ => ends_tryOpen hs ..
  · split
    · exact .panic
    · split
      · exact .ok ⟨rfl, hs⟩
      · exact (ends_subW _ _ _ _).bind fun _ _ => ends_tryOpen hs ..
  · split
    · exact .ok ⟨rfl, hs⟩
    · exact (ends_subW _ _ _ _).bind fun _ _ => ends_tryOpen hs ..

theorem ends_visitNext (oc : Bool) (rnd : Nat → Nat) (c w h : Nat) (s : VState) (hs : DOk s.conn) :
    Ends (visitNext oc rnd c w h s) fun r => DOk r.2.conn ∧ r.2.visitable.length ≤ s.visitable.length ∧
      (r.1 ≠ none → r.2.visitable.length < s.visitable.length) := by
  refine Ends.loop (fun t => DOk t.conn ∧ t.visitable.length ≤ s.visitable.length) (fun t => t.visitable.length) _ ?_ s
    ⟨hs, Nat.le_refl _⟩
  rintro t ⟨ht, hl⟩
  unfold visitBody
  cases hv : t.visitable with
  | nil => exact .ok ⟨ht, by simpa [hv] using hl, fun h => absurd rfl h⟩
  | cons a v =>
    simp only [List.isEmpty_cons, Bool.false_eq_true, if_false]
    obtain ⟨hi, v', h1, h2⟩ := chooseRandom_spec (rnd t.k) (List.cons_ne_nil a v)
    have hlen := h2.length_eq
    simp only [List.length_cons] at hlen
    rw [h1]
    simp only [Prog.ok_bind, expectP_some]
    rw [hv] at hl
    simp only [List.length_cons] at hl
    refine (ends_visitDir oc (s := { t with visitable := v', k := t.k + 1 }) ht c w h _).mono ?_
    rintro (t' | ⟨o, t'⟩) ⟨e1, e2⟩
    · exact ⟨⟨e2, by rw [e1]; simp only; omega⟩, by rw [e1]; simp only [List.length_cons]; omega⟩
    · exact ⟨e2, by rw [e1]; simp only; omega, fun _ => by rw [e1]; simp only; omega⟩

theorem ends_backtrack (oc : Bool) (rnd : Nat → Nat) (w h : Nat) (s : RState) (hs : DOk s.conn) :
    Ends (loop (backtrackBody oc rnd w h) s) fun _ => True := by
  refine Ends.loop (fun t => DOk t.conn) (fun t => 2 * vsum t.canVisit + t.path.length) _ ?_ s hs
  rintro ⟨maze, conn, path, cv, k⟩ ht
  unfold backtrackBody
  cases path with
  | nil => exact .ok trivial
  | cons c rest =>
    simp only
    refine (ends_getP _ _).bind fun vis hvis => ?_
    refine (ends_visitNext oc rnd c w h ⟨maze, conn, vis, k⟩ ht).bind ?_
    rintro ⟨r, v⟩ ⟨h1, h2, h3⟩
    refine (ends_setP _ _ _).bind ?_
    rintro cv' ⟨hc, rfl⟩
    have hsum := vsum_set cv c v.visitable hc
    have hg : cv[c] = vis := by
      rw [List.getElem?_eq_getElem hc] at hvis
      exact Option.some.inj hvis
    rw [hg] at hsum
    simp only at h2 h3 hsum
    cases r with
    | some next =>
      have := h3 (by simp)
      refine .ok ⟨h1, ?_⟩
      simp only [List.length_cons]
      omega
    | none =>
      refine .ok ⟨h1, ?_⟩
      simp only [List.length_cons]
      omega

/-! ### The breadth-first search ends, and finds too few cells of the last row -/

/-- How many cells are unvisited. -/
def unv (t : List PathNode) : Nat := t.countP fun p => match p with | .Unvisited => true | _ => false

/-- The coordinates taken from the queue (`P`) and those in it are different, inside the tree, and visited. -/
structure Seen (n : Nat) (P : List Nat) (s : BState) : Prop where
  len : s.pathTree.length = n
  nodup : (P ++ s.traversal).Nodup
  vis : ∀ x ∈ P ++ s.traversal, ∃ p, s.pathTree[x]? = some p ∧ p ≠ .Unvisited

/-- `t` is `s` after some visits. -/
def After (n : Nat) (P : List Nat) (s t : BState) : Prop :=
  Seen n P t ∧ t.foundPaths = s.foundPaths ∧
    2 * unv t.pathTree + t.traversal.length ≤ 2 * unv s.pathTree + s.traversal.length

theorem unv_set {t : List PathNode} {i f : Nat} (h : t[i]? = some .Unvisited) :
    unv (t.set i (.Path f)) + 1 = unv t := by
  obtain ⟨hi, hg⟩ := List.getElem?_eq_some_iff.mp h
  have hc := List.countP_set (p := fun p => match p with | PathNode.Unvisited => true | _ => false)
    (l := t) (i := i) (a := .Path f) hi
  have hpos : 0 < unv t := List.countP_pos_iff.mpr ⟨.Unvisited, hg ▸ List.getElem_mem hi, rfl⟩
  unfold unv at *
  rw [hc, hg]
  simp
  omega

theorem ends_tryVisit {n : Nat} {P : List Nat} {s : BState} (hs : Seen n P s) (wall : Bool) (f dst : Nat) :
    Ends (tryVisit s wall f dst) (After n P s) := by
  unfold tryVisit
  cases wall with
  | true => exact .ok ⟨hs, rfl, Nat.le_refl _⟩
  | false =>
    simp only [Bool.false_eq_true, if_false]
    refine (ends_getP _ _).bind fun p hp => ?_
    cases p with
    | Start => exact .ok ⟨hs, rfl, Nat.le_refl _⟩
    | Path => exact .ok ⟨hs, rfl, Nat.le_refl _⟩
    | Unvisited =>
      refine (ends_setP _ _ _).bind ?_
      rintro t ⟨hl, rfl⟩
      have hnot : dst ∉ P ++ s.traversal := by
        intro hm
        obtain ⟨p, h1, h2⟩ := hs.vis dst hm
        rw [hp] at h1
        exact h2 (Option.some.inj h1).symm
      refine .ok ⟨⟨by simp [hs.len], ?_, ?_⟩, rfl, ?_⟩
      · simp only
        rw [← List.append_assoc]
        refine List.nodup_append.mpr ⟨hs.nodup, by simp, ?_⟩
        intro a ha b hb hab
        simp only [List.mem_singleton] at hb
        subst hb hab
        exact hnot ha
      · intro x hx
        simp only at hx ⊢
        rw [← List.append_assoc, List.mem_append, List.mem_singleton] at hx
        by_cases hxt : x = dst
        · subst hxt
          exact ⟨.Path f, by simp [hl], by simp⟩
        · obtain ⟨p, h1, h2⟩ := hs.vis x (hx.resolve_right hxt)
          exact ⟨p, by rw [List.getElem?_set_ne (Ne.symm hxt)]; exact h1, h2⟩
      · have := unv_set (f := f) hp
        simp only [List.length_append, List.length_singleton]
        omega

theorem After.trans {n : Nat} {P : List Nat} {s t u : BState} (h : After n P s t) (h' : After n P t u) :
    After n P s u := ⟨h'.1, h'.2.1.trans h.2.1, Nat.le_trans h'.2.2 h.2.2⟩

theorem ends_expand (oc : Bool) {n : Nat} {P : List Nat} {s : BState} (hs : Seen n P s) (grid : List MazeNode)
    (w c : Nat) : Ends (expand oc grid w c s) (After n P s) := by
  unfold expand
  refine (ends_addW _ _ _ _).bind fun _ _ => (ends_getP _ _).bind fun node _ => ?_
  refine (ends_tryVisit hs _ _ _).bind fun s1 h1 => (ends_addW _ _ _ _).bind fun _ _ => ?_
  refine (ends_tryVisit h1.1 _ _ _).bind fun s2 h2 => ?_
  have h2 := h1.trans h2
  have h3 : Ends (if 1 ≤ c then do
      let node ← getP grid (c - 1)
      tryVisit s2 node.right c (c - 1)
    else pure s2) (After n P s) := by
    split
    · exact (ends_getP _ _).bind fun _ _ => (ends_tryVisit h2.1 _ _ _).mono fun _ h => h2.trans h
    · exact .ok h2
  refine h3.bind fun s3 h3 => ?_
  split
  · exact (ends_getP _ _).bind fun _ _ => (ends_tryVisit h3.1 _ _ _).mono fun _ h => h3.trans h
  · exact .ok h3

/-- Different cells of the last row inside a vector that ends before that row does. -/
theorem last_row_short {w h n : Nat} (hw : 1 ≤ w) (hh : 1 ≤ h) (hn : n < w * h) {P : List Nat} (hP : P.Nodup)
    (hlt : ∀ x ∈ P, x < n) : (P.filter fun x => x / w = h - 1).length < w := by
  have hnd := hP.filter fun x => x / w = h - 1
  have hsub : (P.filter fun x => x / w = h - 1).toFinset ⊆ Finset.Ico (w * (h - 1)) n := by
    intro x hx
    simp only [List.mem_toFinset, List.mem_filter, decide_eq_true_eq] at hx
    refine Finset.mem_Ico.mpr ⟨?_, hlt x hx.1⟩
    rw [← hx.2]
    exact Nat.mul_div_le x w
  have hcard := Finset.card_le_card hsub
  rw [List.toFinset_card_of_nodup hnd, Nat.card_Ico] at hcard
  have : w * h = w * (h - 1) + w := by
    obtain ⟨k, rfl⟩ : ∃ k, h = k + 1 := ⟨h - 1, by omega⟩
    rw [Nat.add_sub_cancel, Nat.mul_add, Nat.mul_one]
  omega

theorem bfs_short (oc : Bool) {w h n : Nat} (hw : 1 ≤ w) (hh : 1 ≤ h) (hh' : h < 2 ^ 64) (hn : n < w * h)
    (grid : List MazeNode) (s : BState) (hs : Seen n [] s) (hf : s.foundPaths = 0) :
    loop (bfsBody oc w h grid) s = .panic := by
  have : Ends (loop (bfsBody oc w h grid) s) fun _ => False := by
    refine Ends.loop (fun t => ∃ P, Seen n P t ∧ t.foundPaths = (P.filter fun x => x / w = h - 1).length)
      (fun t => 2 * unv t.pathTree + t.traversal.length) _ ?_ s ⟨[], hs, by simpa using hf⟩
    rintro ⟨tree, trav, found⟩ ⟨P, ht, hfound⟩
    unfold bfsBody
    cases trav with
    | nil => exact .panic
    | cons c rest =>
      simp only at hfound
      simp only [if_neg (show ¬ w = 0 by omega), subW_ok (show 1 ≤ h from hh), Prog.ok_bind]
      have hmove : ∀ k, Seen n (P ++ [c]) ⟨tree, rest, k⟩ := fun k =>
        ⟨ht.len, by simpa [List.append_assoc] using ht.nodup, by simpa [List.append_assoc] using ht.vis⟩
      have hlt : ∀ x ∈ P ++ [c], x < n := by
        intro x hx
        obtain ⟨p, hp, _⟩ := ht.vis x (by simp at hx ⊢; tauto)
        have := (List.getElem?_eq_some_iff.mp hp).1
        exact ht.len ▸ this
      have hnd : (P ++ [c]).Nodup :=
        (show ((P ++ [c]) ++ rest).Nodup by simpa [List.append_assoc] using ht.nodup).of_append_left
      have hshort := last_row_short hw hh hn hnd hlt
      have hfil : ((P ++ [c]).filter fun x => x / w = h - 1).length =
          found + if c / w = h - 1 then 1 else 0 := by
        rw [List.filter_append, List.length_append, ← hfound]
        split <;> simp [*]
      have hgo : ∀ k, k = ((P ++ [c]).filter fun x => x / w = h - 1).length →
          Ends (do let s ← expand oc grid w c ⟨tree, rest, k⟩; return Sum.inl s) fun
            | .inl t => (∃ P, Seen n P t ∧ t.foundPaths = (P.filter fun x => x / w = h - 1).length) ∧
                2 * unv t.pathTree + t.traversal.length < 2 * unv tree + (c :: rest).length
            | .inr (_ : List MazeNode × List MazeDirection) => False := by
        intro k hk
        refine (ends_expand oc (hmove k) grid w c).bind ?_
        rintro t ⟨h1, h2, h3⟩
        refine .ok ⟨⟨_, h1, h2.trans hk⟩, ?_⟩
        simp only [List.length_cons] at h3 ⊢
        omega
      by_cases hrow : c / w = h - 1
      · rw [if_pos hrow] at hfil ⊢
        rw [if_neg (by omega)]
        exact (hgo _ hfil.symm).mono fun r h => by cases r <;> exact h
      · rw [if_neg hrow] at hfil ⊢
        exact (hgo _ hfil.symm).mono fun r h => by cases r <;> exact h
  rcases this with h | ⟨_, _, h⟩
  · exact h
  · exact h.elim

theorem ends_recursiveBacktrack (oc : Bool) (rnd : Nat → Nat) (w h : Nat) :
    Ends (recursiveBacktrack oc rnd w h) fun _ => True := by
  unfold recursiveBacktrack
  refine (ends_mulW _ _ _ _).bind fun n _ => ?_
  have hrep : ∀ {α : Type} (b : Nat) (x : α), Ends (vecRepeat b x n) fun v => v = List.replicate n x := by
    intro α b x
    unfold vecRepeat
    split
    · exact .ok rfl
    · exact .panic
  refine (hrep _ _).bind fun maze _ => (hrep _ _).bind ?_
  rintro conn rfl
  refine (hrep _ _).bind fun cv _ => ends_backtrack oc rnd w h _ ?_
  obtain ⟨rep, rank, hI, _⟩ := (DisjointSet.init_hist n).ex
  exact ⟨rep, rank, hI⟩

/-- If the product of the dimensions wraps around, `create_maze` panics: in one of the vectors' allocations, at
`path_tree[0]`, in the random search, or, at the latest, when the breadth-first search runs out of cells before
it has met a whole last row. -/
theorem createMaze_wraps (rnd : Nat → Nat) {w h : Nat} (hh' : h < 2 ^ 64)
    (hov : 2 ^ 64 ≤ w * h) (alg : MazeAlgorithm) : createMaze false rnd w h alg = .panic := by
  have hw : 1 ≤ w := by
    rcases Nat.eq_zero_or_pos w with rfl | h
    · simp at hov
    · exact h
  have hh : 1 ≤ h := by
    rcases Nat.eq_zero_or_pos h with rfl | h
    · simp at hov
    · exact h
  cases alg
  unfold createMaze
  rcases ends_recursiveBacktrack false rnd w h with e | ⟨grid, e, _⟩
  · simp only [e]; rfl
  · simp only [e, Prog.ok_bind]
    have hm : mulW false 64 w h = .ok (w * h % 2 ^ 64) := by
      simp only [mulW, if_neg (show ¬ w * h < 2 ^ 64 by omega), Bool.false_eq_true, if_false]
    rw [hm, Prog.ok_bind]
    have hlt : w * h % 2 ^ 64 < w * h := by
      have := Nat.mod_lt (w * h) (show 2 ^ 64 > 0 by omega)
      omega
    generalize w * h % 2 ^ 64 = n at hlt
    unfold vecRepeat
    split
    · rw [Prog.ok_bind]
      cases n with
      | zero => rfl
      | succ n =>
        have : setP (List.replicate (n + 1) PathNode.Unvisited) 0 .Start =
            .ok (.Start :: List.replicate n PathNode.Unvisited) := rfl
        rw [this, Prog.ok_bind]
        exact bfs_short false hw hh hh' hlt grid _ ⟨by simp, by simp, by simp⟩ rfl
    · rfl

end Maze
