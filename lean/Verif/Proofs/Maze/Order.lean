import Verif.Proofs.Maze.Final

/-! Helper lemmas: the order in which the breadth-first search of `create_maze` visits the cells. -/
namespace Maze
open Spec

variable {w h : Nat}

/-! ### Order of the cells added in one step -/

theorem tryVisit_trav {s s' : BState} {wall : Bool} {c t : Nat} (e : tryVisit s wall c t = .ok s') :
    ∃ b : Bool, s'.traversal = s.traversal ++ (if b then [t] else []) ∧ (b = true → wall = false) := by
  unfold tryVisit at e
  cases wall with
  | true =>
    obtain rfl : s = s' := by simpa using e
    exact ⟨false, by simp, by simp⟩
  | false =>
    simp only [Bool.false_eq_true, if_false] at e
    obtain ⟨x, _, e⟩ := Prog.bind_eq_ok.mp e
    cases x with
    | Unvisited =>
      simp only at e
      obtain ⟨pt, _, e⟩ := Prog.bind_eq_ok.mp e
      simp at e
      exact ⟨true, by rw [← e]; simp, by simp⟩
    | Start => simp at e; exact ⟨false, by simp [e], by simp⟩
    | Path p => simp at e; exact ⟨false, by simp [e], by simp⟩

theorem expand_order {oc : Bool} {g : List MazeNode} (hP : Perfect w h g) (hw : 0 < w) (hn : w * h < 2 ^ 63) {c : Nat} {s s' : BState}
    (hc : c < w * h) (e : expand oc g w c s = .ok s') :
    ∃ ds new, s'.traversal = s.traversal ++ new ∧
      List.Forall₂ (fun d x => move w h g c d = some x) ds new ∧ ds.Pairwise (fun a b => rank a < rank b) := by
  have hcg : c < g.length := hP.len ▸ hc
  have hww : w ≤ w * h := Nat.le_mul_of_pos_right _ (Nat.pos_of_ne_zero fun h0 => by rw [h0] at hc; simp at hc)
  unfold expand at e
  simp only [addW_ok (show c + 1 < 2 ^ 64 by omega), addW_ok (show c + w < 2 ^ 64 by omega), getP_ok hcg,
    Prog.ok_bind] at e
  obtain ⟨s1, e1, e⟩ := Prog.bind_eq_ok.mp e
  obtain ⟨s2, e2, e⟩ := Prog.bind_eq_ok.mp e
  obtain ⟨s3, e3, e⟩ := Prog.bind_eq_ok.mp e
  obtain ⟨b1, t1, m1⟩ := tryVisit_trav e1
  obtain ⟨b2, t2, m2⟩ := tryVisit_trav e2
  have h3 : ∃ b : Bool, s3.traversal = s2.traversal ++ (if b then [c - 1] else []) ∧
      (b = true → 1 ≤ c ∧ rightOpen g (c - 1) = true) := by
    by_cases h1 : 1 ≤ c
    · have hlt : c - 1 < g.length := by omega
      simp only [h1, if_true, getP_ok hlt, Prog.ok_bind] at e3
      obtain ⟨b, t, m⟩ := tryVisit_trav e3
      exact ⟨b, t, fun hb => ⟨h1, by rw [rightOpen_getElem hlt, m hb]; rfl⟩⟩
    · simp only [h1, if_false] at e3
      simp at e3
      exact ⟨false, by simp [e3], by simp⟩
  have h4 : ∃ b : Bool, s'.traversal = s3.traversal ++ (if b then [c - w] else []) ∧
      (b = true → w ≤ c ∧ downOpen g (c - w) = true) := by
    by_cases h1 : w ≤ c
    · have hlt : c - w < g.length := by omega
      simp only [h1, if_true, getP_ok hlt, Prog.ok_bind] at e
      obtain ⟨b, t, m⟩ := tryVisit_trav e
      exact ⟨b, t, fun hb => ⟨h1, by rw [downOpen_getElem hlt, m hb]; rfl⟩⟩
    · simp only [h1, if_false] at e
      simp at e
      exact ⟨false, by simp [e], by simp⟩
  obtain ⟨b3, t3, m3⟩ := h3
  obtain ⟨b4, t4, m4⟩ := h4
  have r1 : b1 = true → move w h g c .Right = some (c + 1) := by
    intro hb
    have ho : rightOpen g c = true := by rw [rightOpen_getElem hcg, m1 hb]; rfl
    simp [move, sideOpen, ho, nbr, hP.borderR c ho]
  have r2 : b2 = true → move w h g c .Down = some (c + w) := by
    intro hb
    have ho : downOpen g c = true := by rw [downOpen_getElem hcg, m2 hb]; rfl
    simp [move, sideOpen, ho, nbr, hP.borderD c ho]
  have r3 : b3 = true → move w h g c .Left = some (c - 1) := by
    intro hb
    obtain ⟨h1, ho⟩ := m3 hb
    have hm := hP.borderR _ ho
    have hm' : 0 < c % w := by
      have h2 := Nat.div_add_mod (c - 1) w
      have h3 : c = w * ((c - 1) / w) + ((c - 1) % w + 1) := by omega
      rw [h3, Nat.mul_add_mod, Nat.mod_eq_of_lt (by omega)]
      omega
    simp [move, sideOpen, ho, nbr, hm']
  have r4 : b4 = true → move w h g c .Up = some (c - w) := by
    intro hb
    obtain ⟨h1, ho⟩ := m4 hb
    simp [move, sideOpen, ho, nbr, h1]
  refine ⟨(if b1 then [.Right] else []) ++ ((if b2 then [.Down] else []) ++ ((if b3 then [.Left] else []) ++
      (if b4 then [.Up] else []))),
    (if b1 then [c + 1] else []) ++ ((if b2 then [c + w] else []) ++ ((if b3 then [c - 1] else []) ++
      (if b4 then [c - w] else []))), ?_, ?_, ?_⟩
  · rw [t4, t3, t2, t1]; simp
  · clear t1 t2 t3 t4 m1 m2 m3 m4
    revert r1 r2 r3 r4
    cases b1 <;> cases b2 <;> cases b3 <;> cases b4 <;> simp <;> tauto
  · cases b1 <;> cases b2 <;> cases b3 <;> cases b4 <;> simp [rank]

/-! ### Shortlex -/

theorem lex_append {α : Type} {r : α → α → Prop} {s t : List α} (hl : s.length = t.length)
    (hs : List.Lex r s t) (a b : α) : List.Lex r (s ++ [a]) (t ++ [b]) := by
  induction hs with
  | nil => simp at hl
  | rel h => exact .rel h
  | cons _ ih => exact .cons (ih (by simpa using hl))

theorem Before.append {s t : List MazeDirection} (hb : Before s t) (a b : MazeDirection) :
    Before (s ++ [a]) (t ++ [b]) := by
  unfold Before at *
  rw [List.shortlex_def] at *
  rcases hb with h1 | ⟨h1, h2⟩
  · left; simpa using h1
  · right; exact ⟨by simpa using h1, lex_append h1 h2 a b⟩

theorem Before.last {s : List MazeDirection} {a b : MazeDirection} (hr : rank a < rank b) :
    Before (s ++ [a]) (s ++ [b]) := by
  unfold Before
  rw [List.shortlex_def]
  refine .inr ⟨by simp, ?_⟩
  induction s with
  | nil => exact .rel hr
  | cons x s ih => exact .cons ih

/-! ### The invariant -/

structure RInv (w h : Nat) (g : List MazeNode) (rt : Nat → List MazeDirection) (P Q : List Nat) : Prop where
  zero : rt 0 = []
  par : ∀ x ∈ P ++ Q, x = 0 ∨ ∃ p ∈ P, ∃ d, rt x = rt p ++ [d]
  route : ∀ x ∈ P ++ Q, ∃ cells, walk w h g 0 (rt x) = some cells ∧ cells.getLast? = some x ∧ cells.Nodup ∧
    cells ⊆ P ++ Q
  sorted : (P ++ Q).Pairwise fun a b => Before (rt a) (rt b)

theorem RInv.init (g : List MazeNode) : RInv w h g (fun _ => []) [] [0] := by
  refine ⟨rfl, by simp, ?_, by simp⟩
  intro x hx
  simp at hx
  exact ⟨[0], rfl, by simp [hx], by simp, by simp⟩

theorem RInv.pop {g : List MazeNode} {rt P c rest} {ds new} (H : RInv w h g rt P (c :: rest))
    (hF : List.Forall₂ (fun d x => move w h g c d = some x) ds new)
    (hS : ds.Pairwise (fun a b => rank a < rank b)) (hnd : new.Nodup)
    (hdis : ∀ x ∈ P ++ c :: rest, x ∉ new) (h0 : 0 ∈ P ++ c :: rest) :
    ∃ rt', RInv w h g rt' (P ++ [c]) (rest ++ new) := by
  -- the direction in which a new cell was found
  have hdir : ∃ dir : Nat → MazeDirection, new.map dir = ds ∧ ∀ x ∈ new, move w h g c (dir x) = some x := by
    clear hS hdis
    induction hF with
    | nil => exact ⟨fun _ => .Right, rfl, by simp⟩
    | @cons d x ds new h1 _ ih =>
      obtain ⟨hx, hnd⟩ := List.nodup_cons.mp hnd
      obtain ⟨dir, e, hm⟩ := ih hnd
      refine ⟨fun y => if y = x then d else dir y, ?_, ?_⟩
      · simp only [List.map_cons, if_true]
        rw [← e]
        congr 1
        refine List.map_congr_left ?_
        intro y hy
        rw [if_neg]; rintro rfl; exact hx hy
      · intro y hy
        rcases List.mem_cons.mp hy with rfl | hy'
        · simpa using h1
        · have hne : y ≠ x := by rintro rfl; exact hx hy'
          simpa [hne] using hm y hy'
  obtain ⟨dir, rfl, hm⟩ := hdir
  have e : P ++ [c] ++ (rest ++ new) = (P ++ c :: rest) ++ new := by simp
  have hcm : c ∈ P ++ c :: rest := by simp
  let rt' : Nat → List MazeDirection := fun x => if x ∈ new then rt c ++ [dir x] else rt x
  have hold : ∀ x ∈ P ++ c :: rest, rt' x = rt x := fun x hx => if_neg (hdis x hx)
  have hnew : ∀ x ∈ new, rt' x = rt c ++ [dir x] := fun x hx => if_pos hx
  have hlast : ∀ x ∈ P ++ c :: rest, ∀ d, Before (rt x) (rt c ++ [d]) := by
    intro x hx d
    rcases H.par x hx with rfl | ⟨p, hp, d', e'⟩
    · rw [H.zero]
      exact List.Shortlex.of_length_lt (by simp)
    · rw [e']
      exact Before.append ((List.pairwise_append.mp H.sorted).2.2 p hp c (by simp)) _ _
  refine ⟨rt', ?_, ?_, ?_, ?_⟩
  · rw [hold 0 h0]; exact H.zero
  · intro x hx
    rw [e] at hx
    rcases List.mem_append.mp hx with hx | hx
    · rcases H.par x hx with rfl | ⟨p, hp, d, e'⟩
      · exact .inl rfl
      · exact .inr ⟨p, by simp [hp], d, by rw [hold x hx, hold p (by simp [hp])]; exact e'⟩
    · exact .inr ⟨c, by simp, dir x, by rw [hnew x hx, hold c hcm]⟩
  · intro x hx
    rw [e] at hx ⊢
    rcases List.mem_append.mp hx with hx | hx
    · obtain ⟨cells, h1, h2, h3, h4⟩ := H.route x hx
      exact ⟨cells, by rw [hold x hx]; exact h1, h2, h3, fun y hy => List.mem_append_left _ (h4 hy)⟩
    · obtain ⟨cells, h1, h2, h3, h4⟩ := H.route c hcm
      refine ⟨cells ++ [x], ?_, by simp, ?_, ?_⟩
      · rw [hnew x hx]
        exact walk_append h1 h2 (hm x hx)
      · rw [List.nodup_append]
        refine ⟨h3, by simp, ?_⟩
        rintro y hy z hz rfl
        simp at hz; subst hz
        exact hdis _ (h4 hy) hx
      · intro y hy
        rcases List.mem_append.mp hy with hy | hy
        · exact List.mem_append_left _ (h4 hy)
        · simp at hy; subst hy; exact List.mem_append_right _ hx
  · rw [e, List.pairwise_append]
    refine ⟨?_, ?_, ?_⟩
    · refine H.sorted.imp_of_mem ?_
      intro a b ha hb hab
      rw [hold a ha, hold b hb]; exact hab
    · rw [List.pairwise_map] at hS
      refine hS.imp_of_mem ?_
      intro a b ha hb hab
      rw [hnew a ha, hnew b hb]
      exact Before.last hab
    · intro a ha b hb
      rw [hold a ha, hnew b hb]
      exact hlast a ha _

/-! ### Simple routes are unique -/

theorem move_graph {g : List MazeNode} (hw : 0 < w) {c m : Nat} {d : MazeDirection}
    (hc : c < w * h) (hm : move w h g c d = some m) : A w h g c m := by
  unfold move at hm
  split at hm
  · next ho =>
    have hml := (nbr_pos hw hc hm).1
    rw [A_iff hw hc hml]
    cases d with
    | Right =>
      simp only [nbr] at hm
      split at hm <;> simp at hm
      next h1 => exact .inl (.inl ⟨hm.symm, h1, ho⟩)
    | Down =>
      simp only [nbr] at hm
      split at hm <;> simp at hm
      exact .inl (.inr ⟨hm.symm, ho⟩)
    | Left =>
      simp only [nbr] at hm
      split at hm <;> simp at hm
      next h1 =>
      have : 1 ≤ c := by
        rcases Nat.eq_zero_or_pos c with e | e
        · subst e; simp at h1
        · exact e
      subst hm
      exact .inr (.inl ⟨by omega, mod_pred hw h1, ho⟩)
    | Up =>
      simp only [nbr] at hm
      split at hm <;> simp at hm
      subst hm
      exact .inr (.inr ⟨by omega, ho⟩)
  · cases hm

theorem walk_cells {g : List MazeNode} (hw : 0 < w) (ds : List MazeDirection) :
    ∀ {c cells b}, c < w * h → walk w h g c ds = some cells → cells.getLast? = some b →
      ∃ (hc : c < w * h) (hb : b < w * h) (p : (graph w h g).Walk ⟨c, hc⟩ ⟨b, hb⟩),
        p.support.map Fin.val = cells := by
  induction ds with
  | nil =>
    intro c cells b hc h1 h2
    simp [walk] at h1
    subst h1
    simp at h2
    subst h2
    exact ⟨hc, hc, .nil, by simp⟩
  | cons d ds ih =>
    intro c cells b hc h1 h2
    simp only [walk] at h1
    cases hm : move w h g c d with
    | none => simp [hm] at h1
    | some m =>
      rw [hm] at h1
      simp only [Option.map_eq_some_iff] at h1
      obtain ⟨cs, h3, rfl⟩ := h1
      have hne : cs ≠ [] := by
        rintro rfl
        cases ds <;> simp [walk] at h3
        split at h3 <;> simp at h3
      obtain ⟨_, hml, hadj⟩ := move_graph hw hc hm
      have h2' : cs.getLast? = some b := by
        rw [List.getLast?_cons] at h2
        rw [List.getLast?_eq_some_getLast hne] at h2 ⊢
        simpa using h2
      obtain ⟨hc', hb, p, hp⟩ := ih hml h3 h2'
      exact ⟨hc, hb, .cons hadj p, by simp [hp]⟩

theorem move_inj {g : List MazeNode} (hw : 2 ≤ w) {c m : Nat} {d d' : MazeDirection}
    (h1 : move w h g c d = some m) (h2 : move w h g c d' = some m) : d = d' := by
  have key : ∀ d, move w h g c d = some m →
      (d = .Right ∧ m = c + 1) ∨ (d = .Down ∧ m = c + w) ∨ (d = .Left ∧ c = m + 1) ∨ (d = .Up ∧ c = m + w) := by
    intro d hd
    unfold move at hd
    split at hd
    · cases d with
      | Right => simp only [nbr] at hd; split at hd <;> simp at hd; exact .inl ⟨rfl, hd.symm⟩
      | Down => simp only [nbr] at hd; split at hd <;> simp at hd; exact .inr (.inl ⟨rfl, hd.symm⟩)
      | Left =>
        simp only [nbr] at hd; split at hd <;> simp at hd
        next h1 =>
        have : 1 ≤ c := by
          rcases Nat.eq_zero_or_pos c with e | e
          · subst e; simp at h1
          · exact e
        exact .inr (.inr (.inl ⟨rfl, by omega⟩))
      | Up =>
        simp only [nbr] at hd; split at hd <;> simp at hd
        exact .inr (.inr (.inr ⟨rfl, by omega⟩))
    · cases hd
  rcases key d h1 with ⟨rfl, e⟩ | ⟨rfl, e⟩ | ⟨rfl, e⟩ | ⟨rfl, e⟩ <;>
    rcases key d' h2 with ⟨rfl, e'⟩ | ⟨rfl, e'⟩ | ⟨rfl, e'⟩ | ⟨rfl, e'⟩ <;> first | rfl | omega

theorem walk_head {g : List MazeNode} {c : Nat} {ds : List MazeDirection} {cells : List Nat}
    (h1 : walk w h g c ds = some cells) : ∃ cs, cells = c :: cs := by
  cases ds with
  | nil => simp [walk] at h1; exact ⟨[], h1.symm⟩
  | cons d ds =>
    simp only [walk] at h1
    split at h1
    · cases h1
    · simp only [Option.map_eq_some_iff] at h1
      obtain ⟨cs, _, e⟩ := h1
      exact ⟨cs, e.symm⟩

theorem walk_inj {g : List MazeNode} (hw : 2 ≤ w) (ds : List MazeDirection) :
    ∀ {c cells} {ds' : List MazeDirection}, walk w h g c ds = some cells → walk w h g c ds' = some cells →
      ds = ds' := by
  have one : ∀ {c cells} {d : MazeDirection} {ds : List MazeDirection}, walk w h g c (d :: ds) = some cells →
      ∃ m cs, move w h g c d = some m ∧ walk w h g m ds = some (m :: cs) ∧ cells = c :: m :: cs := by
    intro c cells d ds h1
    simp only [walk] at h1
    cases hm : move w h g c d with
    | none => simp [hm] at h1
    | some m =>
      rw [hm] at h1
      simp only [Option.map_eq_some_iff] at h1
      obtain ⟨cs, h3, rfl⟩ := h1
      obtain ⟨cs', rfl⟩ := walk_head h3
      exact ⟨m, cs', rfl, h3, rfl⟩
  induction ds with
  | nil =>
    intro c cells ds' h1 h2
    cases ds' with
    | nil => rfl
    | cons d' ds' =>
      obtain ⟨m, cs, _, _, e⟩ := one h2
      simp [walk] at h1
      rw [← h1] at e
      simp at e
  | cons d ds ih =>
    intro c cells ds' h1 h2
    obtain ⟨m, cs, hm, h3, e⟩ := one h1
    cases ds' with
    | nil =>
      simp [walk] at h2
      rw [← h2] at e
      simp at e
    | cons d' ds' =>
      obtain ⟨m', cs', hm', h3', e'⟩ := one h2
      rw [e] at e'
      simp at e'
      obtain ⟨rfl, rfl⟩ := e'
      rw [move_inj hw hm hm', ih h3 h3']

theorem route_unique {g : List MazeNode} (hP : Perfect w h g) (hw : 2 ≤ w) {b : Nat}
    {ds ds' : List MazeDirection} (h0 : 0 < w * h) (h1 : Route w h g b ds) (h2 : Route w h g b ds') :
    ds = ds' := by
  obtain ⟨cells, a1, a2, a3⟩ := h1
  obtain ⟨cells', b1, b2, b3⟩ := h2
  obtain ⟨_, _, p, hp⟩ := walk_cells (by omega) ds h0 a1 a2
  obtain ⟨_, _, q, hq⟩ := walk_cells (by omega) ds' h0 b1 b2
  have np : p.IsPath := (SimpleGraph.Walk.isPath_def p).mpr (List.Nodup.of_map Fin.val (hp ▸ a3))
  have nq : q.IsPath := (SimpleGraph.Walk.isPath_def q).mpr (List.Nodup.of_map Fin.val (hq ▸ b3))
  have e : p = q := congrArg Subtype.val ((hP.acyclic.subsingleton_path _ _).elim ⟨p, np⟩ ⟨q, nq⟩)
  subst e
  have : cells = cells' := hp.symm.trans hq
  subst this
  exact walk_inj hw ds a1 b1

/-! ### The exit does not change the walks -/

theorem move_exit {g : List MazeNode} {e : Nat} (hw : 0 < w) (hh : 0 < h) (hg : e < g.length)
    (he : e < w * h) (hb : isBottom w h e = true) {c : Nat} (hc : c < w * h) (d : MazeDirection) :
    move w h (g.set e { g[e] with down := false }) c d = move w h g c d := by
  have hbot := (bottom_iff hw hh).mp ⟨he, hb⟩
  have hout : w * h ≤ e + w := by
    rw [List.mem_range'_1] at hbot
    obtain ⟨k, rfl⟩ : ∃ k, h = k + 1 := ⟨h - 1, by omega⟩
    rw [Nat.mul_succ]
    simp only [Nat.add_sub_cancel] at hbot
    omega
  have same : sideOpen w (g.set e { g[e] with down := false }) c d = sideOpen w g c d ∨ nbr w h c d = none := by
    cases d with
    | Right => left; simp only [sideOpen, rightOpen_set_down hg]
    | Left => left; simp only [sideOpen, rightOpen_set_down hg]
    | Down =>
      by_cases hce : c = e
      · right; simp only [nbr]; rw [if_neg (by omega)]
      · left; simp [sideOpen, downOpen_set_down hg, hce]
    | Up =>
      by_cases hce : c - w = e
      · right; simp only [nbr]; rw [if_neg (by omega)]
      · left; simp [sideOpen, downOpen_set_down hg, hce]
  rcases same with hs | hs
  · simp only [move, hs]
  · simp [move, hs]

theorem walk_exit_iff {g : List MazeNode} {e : Nat} (hw : 0 < w) (hh : 0 < h) (hg : e < g.length)
    (he : e < w * h) (hb : isBottom w h e = true) (ds : List MazeDirection) :
    ∀ {c : Nat}, c < w * h →
      walk w h (g.set e { g[e] with down := false }) c ds = walk w h g c ds := by
  induction ds with
  | nil => intro c _; rfl
  | cons d ds ih =>
    intro c hc
    simp only [walk, move_exit hw hh hg he hb hc]
    cases hm : move w h g c d with
    | none => rfl
    | some m =>
      have hml : m < w * h := by
        unfold move at hm
        split at hm
        · exact (nbr_pos hw hc hm).1
        · cases hm
      simp only [ih hml]

/-! ### create_maze -/

theorem createMaze_routes (oc : Bool) (rnd : Nat → Nat) (hw : 2 ≤ w) (hh : 0 < h)
    (hn : w * h * 24 < 2 ^ 63) (alg : MazeAlgorithm) :
    ∃ g g' sol e, createMaze oc rnd w h alg = .ok (g', sol) ∧ Perfect w h g ∧ Searched w h g g' sol e ∧
      recursiveBacktrack oc rnd w h = .ok g ∧
      ∀ b ds, b < w * h → isBottom w h b = true → Route w h g b ds → ds = sol.reverse ∨ Before ds sol.reverse := by
  have h0 : 0 < w * h := Nat.mul_pos (by omega) hh
  obtain ⟨g, g', sol, e, h1, hP, hS, h3, P, rest, ⟨h0m, rt, hR⟩, hall⟩ := createMaze_order oc rnd (by omega) hh hn alg
    (fun g P Q => 0 ∈ P ++ Q ∧ ∃ rt, RInv w h g rt P Q) (fun g => ⟨by simp, _, RInv.init g⟩) (by
      rintro g hP P c rest s s' new ⟨h0m, rt, hR⟩ hc hst _ hex hE hdis
      obtain ⟨ds, new', ht, hF, hSo⟩ := expand_order hP (by omega) (by omega) hc hex
      have hnn : new = new' := by
        have := hE.trav
        rw [ht] at this
        exact (List.append_cancel_left this).symm
      subst hnn
      refine ⟨?_, RInv.pop hR hF hSo hE.nodup hdis h0m⟩
      rw [show P ++ [c] ++ (rest ++ new) = (P ++ c :: rest) ++ new by simp]
      exact List.mem_append_left _ h0m)
  refine ⟨g, g', sol, e, h1, hP, hS, h3, ?_⟩
  intro b ds hb hbot hr
  have hroute : ∀ x ∈ P ++ e :: rest, Route w h g x (rt x) := by
    intro x hx
    obtain ⟨cells, c1, c2, c3, _⟩ := hR.route x hx
    exact ⟨cells, c1, c2, c3⟩
  have hsol : sol.reverse = rt e := by
    obtain ⟨cells, c1, c2, c3⟩ := hS.wide hw
    exact route_unique hP hw h0 ⟨cells, c1, c2, c3⟩ (hroute e (by simp))
  rw [hsol]
  rcases List.mem_append.mp (hall b hb hbot) with hx | hx
  · right
    rw [route_unique hP hw h0 hr (hroute b (by simp [hx]))]
    exact (List.pairwise_append.mp hR.sorted).2.2 b hx e (by simp)
  · left
    simp at hx; subst hx
    exact route_unique hP hw h0 hr (hroute b (by simp))

end Maze
