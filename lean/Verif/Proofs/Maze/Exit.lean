import Verif.Proofs.Maze.Snake
import Verif.Proofs.Maze.Order

/-! The neighbours of the exit in the last row. -/
namespace Maze
open Maze.Spec

section
variable {V : Type} {G : SimpleGraph V}

/-- A vertex with at most two neighbours, of which the end of a path is one, that lies inside the path is its last but
one. -/
theorem corner_last [DecidableEq V] {a b c u : V} (p : G.Walk a b) (hp : p.IsPath) (hc : c ∈ p.support) (hca : c ≠ a)
    (hcb : c ≠ b) (hn : ∀ d, G.Adj c d → d = u ∨ d = b) : p.penultimate = c ∧ G.Adj u c ∧ (u = a → p.length = 2) := by
  have hq := hp.takeUntil hc
  have hr := hp.dropUntil hc
  have hb := SimpleGraph.Walk.endpoint_notMem_support_takeUntil hp hc (Ne.symm hcb)
  have spec := SimpleGraph.Walk.take_spec p hc
  generalize p.takeUntil c hc = q at hq hb spec
  generalize p.dropUntil c hc = r at hr spec
  have nq : ¬ q.Nil := SimpleGraph.Walk.not_nil_of_ne (Ne.symm hca)
  have pq := SimpleGraph.Walk.adj_penultimate nq
  have eu : q.penultimate = u := (hn _ pq.symm).resolve_right fun e => hb (e ▸ (q.getVert_mem_support (q.length - 1)))
  cases r with
  | nil => exact absurd rfl hcb
  | cons had r =>
    rename_i d
    have ed : d = b := (hn d had).resolve_left fun e => by
      have nd : (q.append (.cons had r)).support.Nodup := by rw [spec]; exact hp.support_nodup
      rw [SimpleGraph.Walk.support_append, List.nodup_append] at nd
      have m1 : u ∈ q.support := eu ▸ (q.getVert_mem_support (q.length - 1))
      have m2 : u ∈ (SimpleGraph.Walk.cons had r).support.tail := by
        rw [SimpleGraph.Walk.support_cons, List.tail_cons, ← e]; exact r.start_mem_support
      exact nd.2.2 u m1 u m2 rfl
    subst ed
    have er : r = .nil := by
      have := hr.of_cons
      exact SimpleGraph.Walk.nil_iff_eq_nil.1 (SimpleGraph.Walk.isPath_iff_nil.1 this)
    subst er
    rw [← SimpleGraph.Walk.concat_eq_append] at spec
    refine ⟨by rw [← spec, SimpleGraph.Walk.penultimate_concat], eu ▸ pq, ?_⟩
    intro ua
    rw [← spec, SimpleGraph.Walk.length_concat]
    have : q.length = 1 := by
      rw [ua] at eu
      have h1 := hq.getVert_injOn (show q.length - 1 ∈ {i | i ≤ q.length} from Nat.sub_le _ _) (show 0 ∈ {i | i ≤ q.length} from Nat.zero_le _) (by
        rw [q.getVert_zero]; exact eu)
      have h2 : 0 < q.length := by
        rw [Nat.pos_iff_ne_zero]; exact fun e => nq (SimpleGraph.Walk.nil_iff_length_eq.2 e)
      omega
    omega

/-- A walk along which a number changes by at most one takes every value in between. -/
theorem between {a b : V} (f : V → Nat) (hf : ∀ a b, G.Adj a b → f b ≤ f a + 1) (p : G.Walk a b) (n : Nat)
    (h1 : f a ≤ n) (h2 : n ≤ f b) : ∃ c ∈ p.support, f c = n := by
  induction p with
  | nil => rename_i u; exact ⟨u, by simp, by omega⟩
  | cons h p ih =>
    rename_i x y z
    by_cases e : f x = n
    · exact ⟨x, by simp, e⟩
    · have := hf _ _ h
      obtain ⟨c, hc, e⟩ := ih (by omega) h2
      exact ⟨c, by simp [hc], e⟩
end

variable {w h : Nat}

/-- The neighbours of the exit in the last row are on the way to the exit. -/
theorem exit_neighbour {g : List MazeNode} {sol : List MazeDirection} {e : Nat} (R : Result w h g sol e)
    (hD : DepthFirst w h g) {b : Nat} (hb : b < w * h) (hbh : b / w = h - 1) (hne : b ≠ e) {d : MazeDirection}
    (hn : nbr w h e d = some b) : OnRoute w h g b e := by
  classical
  rcases hD e b d R.he hn with ⟨h0, he, hb', p, hp, hm⟩ | h1
  · exfalso
    have far := R.far h0 b hb hbh
    have h1 := SimpleGraph.Walk.take_spec p hm
    have h2 := congrArg SimpleGraph.Walk.length h1
    rw [SimpleGraph.Walk.length_append] at h2
    have h3 := SimpleGraph.dist_le (p.takeUntil _ hm)
    have h4 : p.length = (graph w h g).dist ⟨0, h0⟩ ⟨b, hb'⟩ := by
      obtain ⟨q, hq, e⟩ := R.tree.connected.exists_path_of_dist ⟨0, h0⟩ ⟨b, hb'⟩
      rw [← e]
      exact congrArg (fun q => SimpleGraph.Walk.length q.1)
        ((R.tree.isAcyclic.subsingleton_path _ _).elim ⟨p, hp⟩ ⟨q, hq⟩)
    have h5 : 0 < (p.dropUntil _ hm).length := by
      rw [Nat.pos_iff_ne_zero]
      intro e
      have := SimpleGraph.Walk.eq_of_length_eq_zero e
      exact hne (congrArg Fin.val this).symm
    omega
  · exact h1

end Maze
