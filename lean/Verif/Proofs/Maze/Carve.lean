import Verif.Proofs.Maze.Exit

/-! Every simple path from cell 0 is carved for suitable draws. -/
namespace Maze
open Maze.Spec

variable {w h : Nat}

/-- With a suitable draw the cell on top of the stack is left towards any given neighbour not yet reached. -/
theorem backtrackBody_go {oc : Bool} {s : RState} {c m : Nat} {rest : List Nat} {d : MazeDirection} (hw : 0 < w)
    (hh : 0 < h) (hn : w * h < 2 ^ 63) (hI : OInv w h s) (hp : s.path = c :: rest) (hd : nbr w h c d = some m)
    (hm : ¬ R w h s.maze 0 m) : ∃ i s', (∀ rnd, rnd s.k = i → backtrackBody oc rnd w h s = .ok (.inl s')) ∧
      OInv w h s' ∧ s'.path = m :: c :: rest ∧ Opens w h s.maze s'.maze c m ∧ s'.k = s.k + 1 := by
  have hpos : 0 < w * h := Nat.mul_pos hw hh
  have hr0c : R w h s.maze 0 c := hI.path c (by simp [hp])
  have hc : c < w * h := hr0c.choose_spec.choose
  have hc' : c < s.canVisit.length := hI.cvlen ▸ hc
  have hnr : ¬ R w h s.maze c m := fun hx => hm (hr0c.trans hx)
  have hdv : d ∈ s.canVisit[c] := by
    by_contra hx
    exact hnr (hI.done c _ (List.getElem?_eq_getElem hc') d hx m hd)
  obtain ⟨i, hi, hid⟩ := List.getElem_of_mem hdv
  have hne : s.canVisit[c] ≠ [] := by rintro e; rw [e] at hi; simp at hi
  obtain ⟨hi', vis', h1, _⟩ := chooseRandom_spec i hne
  have hidx : i % s.canVisit[c].length = i := Nat.mod_eq_of_lt hi
  have hd' : s.canVisit[c][i % s.canVisit[c].length] = d := by simp only [hidx]; exact hid
  rw [hd'] at h1
  have hbody : ∀ rnd, rnd s.k = i → visitBody oc rnd c w h ⟨s.maze, s.conn, s.canVisit[c], s.k⟩ =
      visitDir oc c w h ⟨s.maze, s.conn, vis', s.k + 1⟩ d := by
    intro rnd hk
    have : s.canVisit[c].isEmpty = false := by simpa using hne
    simp [visitBody, this, hk, h1]
  rcases visitDir_spec (oc := oc) (s := ⟨s.maze, s.conn, vis', s.k + 1⟩) hw hh hn hI.minv hc d with
    ⟨conn', _, _, hr⟩ | ⟨m', g', conn', hnb', _, e, _, hop⟩
  · exact absurd (hr m hd) hnr
  · rw [hd] at hnb'
    obtain rfl := Option.some.inj hnb'
    have hstep : ∀ rnd, rnd s.k = i → backtrackBody oc rnd w h s =
        .ok (.inl ⟨g', conn', m :: c :: rest, s.canVisit.set c vis', s.k + 1⟩) := by
      intro rnd hk
      have hv : visitNext oc rnd c w h ⟨s.maze, s.conn, s.canVisit[c], s.k⟩ =
        .ok (some m, ⟨g', conn', vis', s.k + 1⟩) := loop_inr ((hbody rnd hk).trans e)
      simp [backtrackBody, hp, getP_ok hc', hv, setP_ok hc']
    refine ⟨i, _, hstep, ?_, rfl, hop, rfl⟩
    obtain ⟨s', e', hO, _⟩ := backtrackBody_turn (oc := oc) (rnd := fun _ => i) hw hh hn hI (R.refl hpos) hp
    rw [hstep _ rfl] at e'
    injection e' with e'
    injection e' with e'
    exact e' ▸ hO

/-- The stack can be made to follow a simple path. -/
theorem backtrack_follow {oc : Bool} (hw : 0 < w) (hh : 0 < h) (hn : w * h < 2 ^ 63) (f : Nat → Nat) :
    ∀ (n j : Nat) (s : RState) (rest : List Nat), OInv w h s → s.path = f j :: rest →
      (∀ i, i < n → ∃ d, nbr w h (f (j + i)) d = some (f (j + i + 1))) →
      (∀ i, 0 < i → i ≤ n → ¬ R w h s.maze 0 (f (j + i))) →
      (∀ i i', 0 < i → i < i' → i' ≤ n → f (j + i) ≠ f (j + i')) →
      ∃ ds s', OInv w h s' ∧ graph w h s.maze ≤ graph w h s'.maze ∧
        (∀ rnd, Yields rnd s.k ds → loop (backtrackBody oc rnd w h) s = loop (backtrackBody oc rnd w h) s') ∧
        ∀ i, i < n → ∃ ha hb, (graph w h s'.maze).Adj ⟨f (j + i), ha⟩ ⟨f (j + i + 1), hb⟩ := by
  intro n
  induction n with
  | zero =>
    intro j s rest hI _ _ _ _
    exact ⟨[], s, hI, le_rfl, fun _ _ => rfl, fun i hi => absurd hi (by omega)⟩
  | succ n ih =>
    intro j s rest hI hp hd hr hinj
    obtain ⟨d, hd0⟩ := hd 0 (by omega)
    obtain ⟨i0, s1, h1, hI1, hp1, hop, hk1⟩ := backtrackBody_go (oc := oc) hw hh hn hI hp hd0 (hr 1 (by omega) (by omega))
    have hm0 : ¬ R w h s.maze 0 (f (j + 1)) := hr 1 (by omega) (by omega)
    obtain ⟨ds, s', hI', hle, hloop, hadj⟩ := ih (j + 1) s1 (f j :: rest) hI1 hp1
      (fun i hi => by
        have := hd (i + 1) (by omega)
        rwa [show j + (i + 1) = j + 1 + i by omega] at this)
      (fun i h0 hi hx => by
        rw [show j + 1 + i = j + (i + 1) by omega] at hx
        rcases (hop.reach ..).mp hx with h2 | ⟨_, h2⟩ | ⟨h2, _⟩
        · exact hr (i + 1) (by omega) (by omega) h2
        · rcases hI.iso _ _ h2 with e | e
          · exact hinj 1 (i + 1) (by omega) (by omega) (by omega) e
          · exact hm0 e
        · exact hm0 h2)
      (fun i i' h0 h1 h2 => by
        rw [show j + 1 + i = j + (i + 1) by omega, show j + 1 + i' = j + (i' + 1) by omega]
        exact hinj (i + 1) (i' + 1) (by omega) (by omega) (by omega))
    refine ⟨i0 :: ds, s', hI', hop.le.trans hle, ?_, ?_⟩
    · intro rnd hY
      have hY' : Yields rnd s.k ([i0] ++ ds) := hY
      rw [loop_inl (h1 rnd (hY 0 (by simp)))]
      refine hloop rnd ?_
      rw [hk1]
      exact hY'.right
    · intro i hi
      cases i with
      | zero =>
        refine ⟨hop.ha, hop.hb, hle ?_⟩
        rw [hop.eq, SimpleGraph.sup_adj, SimpleGraph.edge_adj]
        refine .inr ⟨.inl ⟨rfl, rfl⟩, ?_⟩
        intro e
        have : f j = f (j + 1) := congrArg Fin.val e
        exact hm0 (this ▸ hI.path (f j) (by simp [hp]))
      | succ i =>
        have := hadj i (by omega)
        rwa [show j + 1 + i = j + (i + 1) by omega] at this

/-- Passages once opened stay open. -/
theorem backtrack_keeps {oc : Bool} {rnd : Nat → Nat} (hw : 0 < w) (hh : 0 < h) (hn : w * h < 2 ^ 63) {s : RState}
    (hI : OInv w h s) : ∃ g, loop (backtrackBody oc rnd w h) s = .ok g ∧ graph w h s.maze ≤ graph w h g := by
  have hpos : 0 < w * h := Nat.mul_pos hw hh
  refine loop_spec (fun t => OInv w h t ∧ graph w h s.maze ≤ graph w h t.maze)
    (fun s => 2 * vsum s.canVisit + s.path.length) _ ?_ _ ⟨hI, le_rfl⟩
  rintro t ⟨hI, hle⟩
  cases hp : t.path with
  | nil =>
    right
    exact ⟨t.maze, by simp [backtrackBody, hp], hle⟩
  | cons c rest =>
    left
    obtain ⟨s', e, hO, hT, hm, _⟩ := backtrackBody_turn (oc := oc) (rnd := rnd) hw hh hn hI (R.refl hpos) hp
    refine ⟨s', e, ⟨hO, hle.trans ?_⟩, by rw [hp] at hm; exact hm⟩
    cases hT with
    | back hmaze _ _ => rw [hmaze]
    | go m _ _ hop _ => exact hop.le

/-- Every simple path from cell 0 is carved for suitable draws. -/
theorem recursiveBacktrack_carves (oc : Bool) (hw : 0 < w) (hh : 0 < h) (hn : w * h * 24 < 2 ^ 63) (f : Nat → Nat)
    (n : Nat) (h0 : f 0 = 0) (hd : ∀ i, i < n → ∃ d, nbr w h (f i) d = some (f (i + 1)))
    (hinj : ∀ i i', i < i' → i' ≤ n → f i ≠ f i') : ∃ rnd g, recursiveBacktrack oc rnd w h = .ok g ∧
      ∀ i, i < n → ∃ ha hb, (graph w h g).Adj ⟨f i, ha⟩ ⟨f (i + 1), hb⟩ := by
  have hpos : 0 < w * h := Nat.mul_pos hw hh
  have hn' : w * h < 2 ^ 63 := by omega
  obtain ⟨ds, s', hI', _, hloop, hadj⟩ := backtrack_follow (oc := oc) hw hh hn' f n 0 (initState w h) []
    (init_oinv hpos) (by simp [initState, h0]) (fun i hi => by simpa using hd i hi)
    (fun i h1 h2 hx => hinj 0 i h1 h2 (by
      have := R_bot (graph_new w h (w * h)) hx
      simpa [h0] using this))
    (fun i i' _ h1 h2 => by simpa using hinj i i' h1 h2)
  obtain ⟨rnd, hY⟩ := exists_yields (initState w h).k ds
  obtain ⟨g, hg, hle⟩ := backtrack_keeps (oc := oc) (rnd := rnd) hw hh hn' hI'
  refine ⟨rnd, g, ?_, ?_⟩
  · rw [recursiveBacktrack_eq oc rnd hn, hloop rnd hY, hg]
  · intro i hi
    obtain ⟨ha, hb, h1⟩ := hadj i hi
    simp only [Nat.zero_add] at ha hb h1
    exact ⟨ha, hb, hle h1⟩

/-- The same of `create_maze`. -/
theorem createMaze_carves (oc : Bool) (alg : MazeAlgorithm) (hw : 0 < w) (hh : 0 < h) (hn : w * h * 24 < 2 ^ 63)
    (f : Nat → Nat) (n : Nat) (h0 : f 0 = 0) (hd : ∀ i, i < n → ∃ d, nbr w h (f i) d = some (f (i + 1)))
    (hinj : ∀ i i', i < i' → i' ≤ n → f i ≠ f i') : ∃ rnd g sol e, createMaze oc rnd w h alg = .ok (g, sol) ∧
      Result w h g sol e ∧ ∀ i, i < n → ∃ ha hb, (graph w h g).Adj ⟨f i, ha⟩ ⟨f (i + 1), hb⟩ := by
  obtain ⟨rnd, g0, h1, hadj⟩ := recursiveBacktrack_carves oc hw hh hn f n h0 hd hinj
  obtain ⟨g, g', sol, e, h2, hP, hS, h3⟩ := createMaze_spec oc rnd hw hh hn alg
  rw [h1] at h3
  obtain rfl : g0 = g := by simpa using h3
  obtain ⟨hg, rfl⟩ := hS.opened
  have hgr := graph_exit hw hh hg hS.he hS.bottom
  obtain ⟨g1, sol1, e1, h4, R⟩ := createMaze_result oc rnd hw hh hn alg
  rw [h2] at h4
  obtain ⟨rfl, rfl⟩ : _ = g1 ∧ sol = sol1 := by simpa using h4
  exact ⟨rnd, _, sol, e1, h2, R, hgr ▸ hadj⟩

section
variable {V : Type} {G : SimpleGraph V}

/-- A walk along a function. -/
theorem walk_along (f : Nat → V) : ∀ n, (∀ i, i < n → G.Adj (f i) (f (i + 1))) →
    ∃ p : G.Walk (f 0) (f n), p.length = n ∧ p.support = (List.range (n + 1)).map f := by
  intro n
  induction n with
  | zero => intro _; exact ⟨.nil, rfl, by simp⟩
  | succ n ih =>
    intro H
    obtain ⟨p, h1, h2⟩ := ih fun i hi => H i (by omega)
    refine ⟨p.concat (H n (by omega)), by simp [h1], ?_⟩
    rw [SimpleGraph.Walk.support_concat, h2, List.range_succ (n := n + 1), List.map_append]
    simp

/-- In a tree the distance along a path is the number of steps. -/
theorem dist_along (hG : G.IsTree) (f : Nat → V) (n : Nat) (H : ∀ i, i < n → G.Adj (f i) (f (i + 1)))
    (hinj : ∀ i i', i < i' → i' ≤ n → f i ≠ f i') {k : Nat} (hk : k ≤ n) : G.dist (f 0) (f k) = k ∧
      ∃ p : G.Walk (f 0) (f k), p.IsPath ∧ p.support = (List.range (k + 1)).map f := by
  obtain ⟨p, h1, h2⟩ := walk_along f k fun i hi => H i (by omega)
  have hp : p.IsPath := by
    rw [SimpleGraph.Walk.isPath_def, h2]
    refine List.Nodup.map_on ?_ List.nodup_range
    intro x hx y hy e
    rw [List.mem_range] at hx hy
    rcases Nat.lt_trichotomy x y with h3 | h3 | h3
    · exact absurd e (hinj x y h3 (by omega))
    · exact h3
    · exact absurd e.symm (hinj y x h3 (by omega))
  refine ⟨?_, p, hp, h2⟩
  obtain ⟨q, hq, e⟩ := hG.connected.exists_path_of_dist (f 0) (f k)
  refine e.symm.trans (Eq.trans ?_ h1)
  exact congrArg (fun q => SimpleGraph.Walk.length q.1) ((hG.isAcyclic.subsingleton_path _ _).elim ⟨q, hq⟩ ⟨p, hp⟩)
end

/-- If a carved path visits the whole last row and ends there, it is the solution. -/
theorem carved_exit {g : List MazeNode} {sol : List MazeDirection} {e : Nat} (R : Result w h g sol e) (f : Nat → Nat)
    (n : Nat) (h0 : f 0 = 0) (hpos : 0 < w * h)
    (hadj : ∀ i, i < n → ∃ ha hb, (graph w h g).Adj ⟨f i, ha⟩ ⟨f (i + 1), hb⟩)
    (hinj : ∀ i i', i < i' → i' ≤ n → f i ≠ f i') (hrow : ∀ c, c < w * h → c / w = h - 1 → ∃ i, i ≤ n ∧ f i = c)
    (hlast : f n / w = h - 1) : e = f n ∧ sol.length = n := by
  have lt : ∀ i, i ≤ n → f i < w * h := by
    intro i hi
    rcases Nat.eq_zero_or_pos i with rfl | h1
    · rw [h0]; exact hpos
    · obtain ⟨_, hb, _⟩ := hadj (i - 1) (by omega)
      rwa [show i - 1 + 1 = i by omega] at hb
  let F : Nat → Fin (w * h) := fun i => if hi : i ≤ n then ⟨f i, lt i hi⟩ else ⟨0, hpos⟩
  have hF : ∀ i (hi : i ≤ n), F i = ⟨f i, lt i hi⟩ := fun i hi => by simp only [F]; rw [dif_pos hi]
  have hd : ∀ k, k ≤ n → (graph w h g).dist (F 0) (F k) = k := fun k hk => (dist_along R.tree F n (fun i hi => by
      rw [hF i (by omega), hF (i + 1) (by omega)]
      obtain ⟨_, _, h1⟩ := hadj i hi
      exact h1) (fun i i' h1 h2 h3 => by
      rw [hF i (by omega), hF i' (by omega)] at h3
      exact hinj i i' h1 h2 (congrArg Fin.val h3)) hk).1
  have z : F 0 = ⟨0, hpos⟩ := by rw [hF 0 (by omega)]; simp only [h0]
  obtain ⟨i, hi, he⟩ := hrow e R.he R.bottom
  have far := R.far hpos (f n) (lt n le_rfl) hlast
  have sl := R.slen hpos
  have e1 : (⟨e, R.he⟩ : Fin (w * h)) = F i := by rw [hF i hi]; simp only [he]
  have e2 : (⟨f n, lt n le_rfl⟩ : Fin (w * h)) = F n := (hF n le_rfl).symm
  rw [← z, e1, e2, hd n le_rfl, hd i hi] at far
  rw [← z, e1, hd i hi] at sl
  obtain rfl : i = n := by omega
  exact ⟨he.symm, sl⟩

/-- A passage is a move. -/
theorem adj_move {g : List MazeNode} (hw : 0 < w) {a b : Nat} {ha : a < w * h} {hb : b < w * h}
    (H : (graph w h g).Adj ⟨a, ha⟩ ⟨b, hb⟩) : ∃ d, move w h g a d = some b := by
  rw [graph, SimpleGraph.fromRel_adj] at H
  rcases H.2 with (⟨h1, h2, h3⟩ | ⟨h1, h2⟩) | (⟨h1, h2, h3⟩ | ⟨h1, h2⟩) <;> simp only at h1
  · exact ⟨.Right, by simp only at h2 h3; simp [move, sideOpen, nbr, h2, h3, h1]⟩
  · exact ⟨.Down, by simp only at h2; simp [move, sideOpen, nbr, h2, ← h1, hb]⟩
  · refine ⟨.Left, ?_⟩
    simp only at h2 h3
    have : a % w = b % w + 1 := by
      rw [h1, Nat.add_mod, Nat.mod_eq_of_lt (show 1 < w by omega), Nat.mod_eq_of_lt h2]
    have h4 : a - 1 = b := by omega
    have h5 : 0 < a % w := by omega
    simp [move, sideOpen, nbr, h4, h3, h5]
  · exact ⟨.Up, by simp only at h2; simp [move, sideOpen, nbr, h1, h2]⟩

theorem walk_of_adj {g : List MazeNode} (hw : 0 < w) (f : Nat → Nat) : ∀ n,
    (∀ i, i < n → ∃ ha hb, (graph w h g).Adj ⟨f i, ha⟩ ⟨f (i + 1), hb⟩) →
    ∃ ds, walk w h g (f 0) ds = some ((List.range (n + 1)).map f) := by
  intro n
  induction n with
  | zero => intro _; exact ⟨[], by simp [walk]⟩
  | succ n ih =>
    intro H
    obtain ⟨ds, h1⟩ := ih fun i hi => H i (by omega)
    obtain ⟨ha, hb, h2⟩ := H n (by omega)
    obtain ⟨d, hd⟩ := adj_move hw h2
    refine ⟨ds ++ [d], ?_⟩
    rw [List.range_succ (n := n + 1), List.map_append]
    exact walk_append h1 (by simp [List.range_succ]) hd

/-- Neighbouring coordinates. -/
theorem nbr_coords {x y x' y' : Nat} (hx : x < w) (hx' : x' < w) (hy : y < h) (hy' : y' < h)
    (H : (x' = x ∧ (y' = y + 1 ∨ y = y' + 1)) ∨ (y' = y ∧ (x' = x + 1 ∨ x = x' + 1))) :
    ∃ d, nbr w h (w * y + x) d = some (w * y' + x') := by
  have hm : (w * y + x) % w = x := by rw [Nat.mul_add_mod, Nat.mod_eq_of_lt hx]
  rcases H with ⟨rfl, rfl | rfl⟩ | ⟨rfl, rfl | rfl⟩
  · refine ⟨.Down, ?_⟩
    have := digits_lt hy' hx
    rw [Nat.mul_add] at this ⊢
    simp only [nbr]
    rw [if_pos (by omega)]
    congr 1; omega
  · refine ⟨.Up, ?_⟩
    simp only [nbr]
    rw [Nat.mul_add, if_pos (by omega)]
    congr 1; omega
  · refine ⟨.Right, ?_⟩
    simp only [nbr]
    rw [hm, if_pos hx']
    congr 1
  · refine ⟨.Left, ?_⟩
    simp only [nbr]
    rw [hm, if_pos (by omega)]
    congr 1

/-- A path in coordinates that visits the whole last row and ends there in column `X n`. -/
theorem exit_at (oc : Bool) (alg : MazeAlgorithm) (hw : 0 < w) (hh : 0 < h) (hn : w * h * 24 < 2 ^ 63)
    (X Y : Nat → Nat) (n : Nat) (h0 : X 0 = 0 ∧ Y 0 = 0) (hX : ∀ i, i ≤ n → X i < w) (hY : ∀ i, i ≤ n → Y i < h)
    (step : ∀ i, i < n → (X (i + 1) = X i ∧ (Y (i + 1) = Y i + 1 ∨ Y i = Y (i + 1) + 1)) ∨
      (Y (i + 1) = Y i ∧ (X (i + 1) = X i + 1 ∨ X i = X (i + 1) + 1)))
    (inj : ∀ i i', i < i' → i' ≤ n → X i ≠ X i' ∨ Y i ≠ Y i')
    (row : ∀ x, x < w → ∃ i, i ≤ n ∧ X i = x ∧ Y i = h - 1) (last : Y n = h - 1) :
    ∃ rnd g sol, createMaze oc rnd w h alg = .ok (g, sol) ∧ downOpen g (w * (h - 1) + X n) = true := by
  let f : Nat → Nat := fun i => w * Y i + X i
  have f0 : f 0 = 0 := by simp only [f]; rw [h0.1, h0.2]; rfl
  have finj : ∀ i i', i < i' → i' ≤ n → f i ≠ f i' := by
    intro i i' h1 h2 e
    obtain ⟨e1, e2⟩ := digits_inj (hX i (by omega)) (hX i' h2) e
    rcases inj i i' h1 h2 with h3 | h3
    · exact h3 e2
    · exact h3 e1
  obtain ⟨rnd, g, sol, e, h1, R, hadj⟩ := createMaze_carves oc alg hw hh hn f n f0
    (fun i hi => nbr_coords (hX i (by omega)) (hX _ hi) (hY i (by omega)) (hY _ hi) (step i hi)) finj
  have fd : ∀ i, i ≤ n → f i / w = Y i := by
    intro i hi
    simp only [f]
    rw [Nat.mul_add_div hw, Nat.div_eq_of_lt (hX i hi), Nat.add_zero]
  obtain ⟨he, _⟩ := carved_exit R f n f0 (Nat.mul_pos hw hh) hadj finj (by
    intro c hc hch
    obtain ⟨i, hi, e1, e2⟩ := row (c % w) (Nat.mod_lt _ hw)
    refine ⟨i, hi, ?_⟩
    simp only [f]
    rw [e1, e2, ← hch]
    exact Nat.div_add_mod c w) (by rw [fd n le_rfl, last])
  refine ⟨rnd, g, sol, h1, ?_⟩
  have : w * (h - 1) + X n = e := by rw [he, ← last]
  rw [this]
  exact (R.exits e R.he R.bottom).mpr rfl

/-- Down the first column, along the last row to column `x - 1`, along the row above to the last column, and back along
the last row. -/
theorem exit_inner (oc : Bool) (alg : MazeAlgorithm) (hh : 2 ≤ h) (hn : w * h * 24 < 2 ^ 63) {x : Nat} (hx : 2 ≤ x)
    (hxw : x < w) : ∃ rnd g sol, createMaze oc rnd w h alg = .ok (g, sol) ∧ downOpen g (w * (h - 1) + x) = true := by
  have H := exit_at oc alg (show 0 < w by omega) (show 0 < h by omega) hn
    (fun i => if i < h then 0 else if i < h + x - 1 then i + 1 - h else if i < h + w then i - h else w - 1 - (i - (h + w)))
    (fun i => if i < h then i else if i < h + x - 1 then h - 1 else if i < h + w then h - 2 else h - 1)
    (h + w + (w - 1 - x)) (by grind)
    (fun i hi => by grind) (fun i hi => by grind) (fun i hi => by grind) (fun i i' h1 h2 => by grind)
    (fun y hy => by
      by_cases h1 : y < x
      · by_cases h2 : y = 0
        · exact ⟨h - 1, by omega, by grind, by grind⟩
        · exact ⟨h + y - 1, by omega, by grind, by grind⟩
      · exact ⟨h + w + (w - 1 - y), by omega, by grind, by grind⟩)
    (by grind)
  obtain ⟨rnd, g, sol, h1, h2⟩ := H
  refine ⟨rnd, g, sol, h1, ?_⟩
  rw [← h2]
  congr 2
  grind

/-- Along the first row, down the last column, back along the last row to column 2, along the row above to column 0, and
down. -/
theorem exit_second (oc : Bool) (alg : MazeAlgorithm) (hw : 4 ≤ w) (hh : 3 ≤ h) (hn : w * h * 24 < 2 ^ 63) :
    ∃ rnd g sol, createMaze oc rnd w h alg = .ok (g, sol) ∧ downOpen g (w * (h - 1) + 1) = true := by
  have H := exit_at oc alg (show 0 < w by omega) (show 0 < h by omega) hn
    (fun i => if i < w then i else if i < w + h - 1 then w - 1 else if i < 2 * w + h - 4 then 2 * w + h - 3 - i else
      if i < 2 * w + h - 1 then 2 * w + h - 2 - i else i - (2 * w + h - 1))
    (fun i => if i < w then 0 else if i < w + h - 1 then i + 1 - w else if i < 2 * w + h - 4 then h - 1 else
      if i < 2 * w + h - 1 then h - 2 else h - 1)
    (2 * w + h) (by grind)
    (fun i hi => by grind) (fun i hi => by grind) (fun i hi => by grind) (fun i i' h1 h2 => by grind)
    (fun y hy => by
      by_cases h1 : y < 2
      · exact ⟨2 * w + h - 1 + y, by omega, by grind, by grind⟩
      · exact ⟨2 * w + h - 3 - y, by omega, by grind, by grind⟩)
    (by grind)
  obtain ⟨rnd, g, sol, h1, h2⟩ := H
  refine ⟨rnd, g, sol, h1, ?_⟩
  rw [← h2]
  congr 2
  grind

end Maze
