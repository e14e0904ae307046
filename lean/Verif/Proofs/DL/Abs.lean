import Verif.Proofs.DL.Seq
import Verif.Spec.DancingLinks

/-! The matrix represented by a torus, and how covering a row's columns changes it. -/
namespace DancingLinks
open Spec

variable {L : Lay} {t : TS}

/-- The matrix a torus represents. -/
def TS.abs (L : Lay) (t : TS) : List (List Nat) := t.HR.map fun c => (t.V c).map L.rid

theorem Lay.Good.cols_nodup (G : L.Good) {q : Nat} (hq : L.isNode q) :
    ((q :: L.oth q).map L.colOf).Nodup :=
  List.Nodup.map_on (fun x hx y hy e => G.colInj q hq x hx y hy e) (G.nd q hq)

theorem filter_of_sublist {l l' : List Nat} (h : l.Sublist l') (nd : l'.Nodup) (p : Nat → Bool)
    (hp : ∀ x ∈ l', (x ∈ l ↔ p x = true)) : l = l'.filter p := by
  induction h with
  | slnil => rfl
  | @cons l1 l2 a h ih =>
    rw [List.nodup_cons] at nd
    have ha : ¬ p a = true := fun hpa => nd.1 (h.subset ((hp a (by simp)).2 hpa))
    rw [List.filter_cons_of_neg ha]
    exact ih nd.2 fun x hx => hp x (by simp [hx])
  | @cons_cons l1 l2 a h ih =>
    rw [List.nodup_cons] at nd
    rw [List.filter_cons_of_pos ((hp a (by simp)).1 (by simp)), ← ih nd.2]
    intro x hx
    rw [← hp x (by simp [hx])]
    have : x ≠ a := by rintro rfl; exact nd.1 hx
    simp [this]

theorem covers_sub (L : Lay) (cs : List Nat) : ∀ t : TS, (t.covers L cs).HR.Sublist t.HR ∧
    ∀ c, ((t.covers L cs).V c).Sublist (t.V c) := by
  induction cs with
  | nil => intro t; exact ⟨.refl _, fun _ => .refl _⟩
  | cons c cs ih =>
    intro t
    obtain ⟨h1, h2⟩ := ih (t.cover L c)
    exact ⟨h1.trans (List.erase_sublist ..), fun d => (h2 d).trans List.filter_sublist⟩

/-- A torus obtained from another by dropping the columns of the rows `A` and the rows in conflict with `A`. -/
theorem abs_residual {HR HR' : List Nat} {V V' : Nat → List Nat} {rid : Nat → Nat} {A : List Nat}
    (hs : HR'.Sublist HR) (vs : ∀ c, (V' c).Sublist (V c)) (ndH : HR.Nodup) (ndV : ∀ c ∈ HR, (V c).Nodup)
    (hr : ∀ c ∈ HR, (c ∈ HR' ↔ ∀ a ∈ A, a ∉ (V c).map rid))
    (hv : ∀ c ∈ HR', ∀ q ∈ V c, (q ∈ V' c ↔
      ∀ a ∈ A, conflict (HR.map fun c => (V c).map rid) (rid q) a = false)) :
    (HR'.map fun c => (V' c).map rid) = residual (HR.map fun c => (V c).map rid) A := by
  unfold residual
  rw [List.filter_map, List.map_map]
  have e1 : HR' = HR.filter ((fun col => A.all fun a => decide (a ∉ col)) ∘ fun c => (V c).map rid) := by
    refine filter_of_sublist hs ndH _ fun c hc => ?_
    rw [hr c hc]
    simp only [Function.comp, List.all_eq_true, decide_eq_true_eq]
  rw [← e1]
  apply List.map_congr_left
  intro c hc
  simp only [Function.comp]
  rw [List.filter_map]
  congr 1
  refine filter_of_sublist (vs c) (ndV c (hs.subset hc)) _ fun q hq => ?_
  rw [hv c hc q hq]
  simp only [Function.comp, List.all_eq_true, Bool.not_eq_true']

theorem conflict_abs (o : t.Ok L) (G : L.Good) {c q c' x : Nat} (hc : c ∈ t.HR) (hq : q ∈ t.V c)
    (hc' : c' ∈ t.HR) (hx : x ∈ t.V c') :
    conflict (t.abs L) (L.rid x) (L.rid q) = true ↔
      ∃ y ∈ x :: L.oth x, L.colOf y ∈ (q :: L.oth q).map L.colOf := by
  have Nq := o.core.isN c hc q hq
  have Nx := o.core.isN c' hc' x hx
  unfold conflict TS.abs
  simp only [List.any_map, List.any_eq_true, Function.comp, decide_eq_true_eq, List.mem_map]
  constructor
  · rintro ⟨d, hd, ⟨y, hy, ey⟩, ⟨z, hz, ez⟩⟩
    have Ny := o.core.isN d hd y hy
    have Nz := o.core.isN d hd z hz
    refine ⟨y, (G.ridEq x y Nx Ny).1 ey.symm, z, (G.ridEq q z Nq Nz).1 ez.symm, ?_⟩
    rw [o.core.col d hd y hy, o.core.col d hd z hz]
  · rintro ⟨y, hy, z, hz, e⟩
    have cy := o.closed hc' hx hy
    have cz := o.closed hc hq hz
    refine ⟨L.colOf y, cy.1, ⟨y, cy.2, ((G.ridEq x y Nx (o.isN G hc' hx hy)).2 hy).symm⟩,
      z, by rw [← e]; exact cz.2, ((G.ridEq q z Nq (o.isN G hc hq hz)).2 hz).symm⟩

/-- Covering the columns of a row selects that row. -/
theorem abs_covers (G : L.Good) (o : t.Ok L) {c q : Nat} (hc : c ∈ t.HR) (hq : q ∈ t.V c) :
    (t.covers L ((q :: L.oth q).map L.colOf)).abs L = residual (t.abs L) [L.rid q] := by
  have Nq := o.core.isN c hc q hq
  have P := covers_spec G ((q :: L.oth q).map L.colOf) t o (G.cols_nodup Nq) (by
    intro d hd; simp only [List.mem_map] at hd
    obtain ⟨x, hx, rfl⟩ := hd; exact (o.closed hc hq hx).1)
  obtain ⟨s1, s2⟩ := covers_sub L ((q :: L.oth q).map L.colOf) t
  have nd := List.nodup_cons.1 o.core.ndH
  refine abs_residual s1 s2 nd.2 o.core.ndV ?_ ?_
  · intro d hd
    rw [P.hr d]
    simp only [hd, true_and, List.mem_singleton, forall_eq]
    apply not_congr
    simp only [List.mem_map]
    constructor
    · rintro ⟨y, hy, rfl⟩
      exact ⟨y, (o.closed hc hq hy).2, ((G.ridEq q y Nq (o.isN G hc hq hy)).2 hy).symm⟩
    · rintro ⟨y, hy, e⟩
      exact ⟨y, (G.ridEq q y Nq (o.core.isN d hd y hy)).1 e.symm, o.core.col d hd y hy⟩
  · intro d hd x hx
    have hd' := s1.subset hd
    rw [P.vmem d hd x]
    simp only [hx, true_and, List.mem_singleton, forall_eq]
    have := conflict_abs o G hc hq hd' hx
    rw [← Bool.not_eq_true]
    change _ ↔ ¬ conflict (t.abs L) (L.rid x) (L.rid q) = true
    rw [this]
    simp only [not_exists, not_and]

theorem firstShortest_split {p1 p2 : List (List Nat)} {b : List Nat} (h1 : ∀ d ∈ p1, b.length < d.length)
    (h2 : ∀ d ∈ p2, b.length ≤ d.length) : firstShortest (p1 ++ b :: p2) = some b := by
  have key : ∀ p : List (List Nat), ∀ d, firstShortest p = some d → d ∈ p := by
    intro p
    induction p with
    | nil => intro d h; simp [firstShortest] at h
    | cons x p ih =>
      intro d h
      simp only [firstShortest] at h
      cases hf : firstShortest p with
      | none => rw [hf] at h; simp at h; simp [h]
      | some y =>
        rw [hf] at h
        simp only at h
        split at h <;> simp only [Option.some.injEq] at h
        · simp [h]
        · subst h; simp [ih y hf]
  induction p1 with
  | nil =>
    simp only [List.nil_append, firstShortest]
    cases hf : firstShortest p2 with
    | none => rfl
    | some y => simp [h2 y (key _ _ hf)]
  | cons x p ih =>
    simp only [List.cons_append, firstShortest, ih fun d hd => h1 d (by simp [hd])]
    have := h1 x (by simp)
    rw [if_neg (by omega)]

end DancingLinks
