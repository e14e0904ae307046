import Verif.Spec.DancingWrap
import Verif.Proofs.DL.RepSound
import Verif.Proofs.DL.FuelWrap
import Verif.Props.Repeats

/-! C130: what an answer is worth when constraints repeat rows. -/
namespace DancingLinks.Props
open DancingLinks DancingLinks.Spec

/-- The state after a history. -/
theorem histG_inv {A : Arith} {M : List (List Nat)} {h0 : Heap} {rows HR : List Nat} {V RW : Nat → List Nat}
    (e0 : Matrix.new Heap.empty M = .ok ({ root := 1, rows := rows, partialSolution := [] }, h0))
    (B : BldR h0 rows HR V RW M) {log m h} (H : HistG A M log m h) :
    Rep.Mono h0 HR V h0 h ∧ Rep.Table RW m.rows ∧ m.root = 1 ∧ m.partialSolution = pushed log ∧
      (∀ r ∈ accepted log, RW r ≠ []) ∧ Rep.Gone (Rep.cols h0 RW (accepted log)) h0 h := by
  induction H with
  | new e =>
    rw [e0] at e
    cases e
    exact ⟨.refl (Rep.inv0 B), Rep.table0 B, rfl, rfl, by simp [accepted], by simp [accepted, Rep.cols, Rep.Gone]⟩
  | @add log m h r res m' h' _ e ih =>
    obtain ⟨i1, i2, i3, i4, i5, i6⟩ := ih
    obtain ⟨m1, t1, r1, c⟩ := Rep.addSolution_res B i1.inv i2 e
    refine ⟨i1.trans m1, t1, r1.trans i3, ?_, ?_, ?_⟩
    · rcases c with ⟨rfl, c⟩ | ⟨rfl, c⟩ | ⟨rfl, c, _⟩
      · rw [c, i4]; simp [pushed]
      · rw [c, i4]; simp [pushed]
      · rw [c, i4]; simp [pushed]
    · rcases c with ⟨rfl, c⟩ | ⟨rfl, c⟩ | ⟨rfl, c, c1, _⟩
      · simpa [accepted] using i5
      · simpa [accepted] using i5
      · intro r' hr'
        simp only [accepted, List.filterMap_append, List.mem_append] at hr'
        rcases hr' with hr' | hr'
        · exact i5 r' hr'
        · simp at hr'; exact hr' ▸ c1
    · rcases c with ⟨rfl, c⟩ | ⟨rfl, c⟩ | ⟨rfl, c, _, c1⟩
      · simpa [accepted] using i6.mono (.refl (Rep.inv0 B)) m1
      · simpa [accepted] using i6.mono (.refl (Rep.inv0 B)) m1
      · have := i6.append c1 i1 m1
        simpa [accepted, Rep.cols] using this

/-- C130: for every list of constraints, with or without repeated rows, and every history of `add_solution` calls that
return, the accepted rows satisfy no constraint twice. `A` is what the build does with the counters. -/
theorem C130_accepted (A : Arith) (M : List (List Nat)) {log m h} (H : HistG A M log m h) : AtMostOnce M (accepted log) := by
  obtain ⟨h0, rows, HR, V, RW, e0, B, _⟩ := new_bldR M
  obtain ⟨_, _, _, _, i5, i6⟩ := histG_inv e0 B H
  obtain ⟨a, b, c⟩ := Rep.cols_nodup B i5 i6.1
  exact ⟨a, b, c⟩

/-- C130: when `solve` then returns `Ok(sol)`, `sol` is the rows pushed by the calls followed by rows `S` that, together
with the accepted ones, satisfy no constraint twice. -/
theorem C130_answer (A : Arith) (M : List (List Nat)) {log m h} (H : HistG A M log m h) {sol h'}
    (e : m.solveG A h = .ok (.ok sol, h')) : ∃ S, sol = pushed log ++ S ∧ AtMostOnce M (accepted log ++ S) := by
  obtain ⟨h0, rows, HR, V, RW, e0, B, _⟩ := new_bldR M
  obtain ⟨i1, i2, i3, i4, i5, i6⟩ := histG_inv e0 B H
  unfold Matrix.solveG at e
  obtain ⟨⟨b, h1, ps⟩, e1, e⟩ := Limit.bind_ok e
  obtain ⟨h2, e2, e⟩ := Limit.bind_ok e
  cases b with
  | false => cases e
  | true =>
    cases e
    rw [i3] at e1
    obtain ⟨m1, _, q⟩ := Rep.solveHelper_res B _ _ _ e1 i1.inv
    obtain ⟨rs, q1, q2, q3⟩ := q rfl
    refine ⟨rs, by rw [← i4]; exact q1, ?_⟩
    have g := i6.append q3 i1 m1
    have hc : Rep.cols h0 RW (accepted log ++ rs) = Rep.cols h0 RW (accepted log) ++ Rep.cols h0 RW rs := by
      simp [Rep.cols]
    rw [← hc] at g
    obtain ⟨a, b, c⟩ := Rep.cols_nodup B (fun r hr => (List.mem_append.1 hr).elim (i5 r) (q2 r)) g.1
    exact ⟨a, b, c⟩

theorem hist_histG {M : List (List Nat)} {log m h} (H : Hist M log m h) : HistG .model M log m h := by
  induction H with
  | new e => exact .new e
  | add _ e ih => exact .add ih (by rw [addSolutionG_model]; exact e)

/-- C130 for the functions of `Model/DancingLinks.lean`. -/
theorem C130_model (M : List (List Nat)) {log m h} (H : Hist M log m h) : AtMostOnce M (accepted log) ∧
    ∀ sol h', m.solve h = .ok (.ok sol, h') → ∃ S, sol = pushed log ++ S ∧ AtMostOnce M (accepted log ++ S) :=
  ⟨C130_accepted _ M (hist_histG H), fun sol h' e => C130_answer _ M (hist_histG H) (by rw [solveG_model]; exact e)⟩

/-- `new(M)`, then `solve`. -/
def solveNewG (A : Arith) (M : List (List Nat)) : Prog (Except DLError (List Nat)) := do
  let (m, h) ← Matrix.new Heap.empty M
  let (res, _) ← m.solveG A h
  return res

def solveNewGF (A : Arith) (n : Nat) (M : List (List Nat)) : Prog (Except DLError (List Nat)) := do
  let (m, h) ← Matrix.new Heap.empty M
  let (res, _) ← solveGF A n m h
  return res

theorem solveNewG_eq (A : Arith) (n : Nat) {M : List (List Nat)} {x : Prog (Except DLError (List Nat))}
    (h : solveNewGF A n M = x) (hx : x ≠ .diverge) : solveNewG A M = x := by
  have : Le (solveNewGF A n M) (solveNewG A M) := (Le.refl _).bind fun _ => (solveGF_le _ _ _ _).bind fun _ => .refl _
  rw [← h]; exact this.eq (h ▸ hx)

/-- The matrix of the examples: the last two constraints share rows, and one constraint repeats row 5 twice over. -/
def repM : List (List Nat) := [[3, 1], [2, 4], [8, 7, 5, 6, 5], [3, 6, 5, 5], [2, 4, 3, 6]]

/-- "At most once" cannot be "exactly once": with repeated rows `solve` can return `Ok` with rows that leave a constraint
unsatisfied, with and without overflow checks. -/
theorem C130_not_cover (oc : Bool) : solveNewG (.build oc) repM = .ok (.ok [1, 7, 2]) ∧ ¬ ExactCover repM [1, 7, 2] := by
  refine ⟨?_, fun h => ?_⟩
  · cases oc
    · exact solveNewG_eq _ 40 (by decide +kernel) (by simp)
    · exact solveNewG_eq _ 40 (by decide +kernel) (by simp)
  · obtain ⟨r, h1, h2, _⟩ := h.once [3, 6, 5, 5] (by simp [repM])
    simp at h1 h2
    omega

/-- The constraint left unsatisfied need not be one that repeats a row: here it is `{7, 9}`. -/
theorem C130_not_cover_clean (oc : Bool) :
    solveNewG (.build oc) [[3, 1], [2, 4], [7, 8, 5, 6, 5], [6, 3, 5, 5], [7, 9], [3, 4, 6, 2]] = .ok (.ok [1, 8, 2]) ∧
    ∀ r ∈ [1, 8, 2], r ∉ [7, 9] := by
  refine ⟨?_, by decide⟩
  cases oc
  · exact solveNewG_eq _ 40 (by decide +kernel) (by simp)
  · exact solveNewG_eq _ 40 (by decide +kernel) (by simp)

/-- Nor is `NoSolution` truthful: on `{0, 2}, {4, 4, 3}, {3, 0}` both builds report it, although rows 2 and 3 are an exact
cover in which every constraint contains one of them, once. -/
theorem C130_missed (oc : Bool) : solveNewG (.build oc) [[0, 2], [4, 4, 3], [3, 0]] = .ok (.error .noSolution) ∧
    ExactCover [[0, 2], [4, 4, 3], [3, 0]] [2, 3] ∧ AtMostOnce [[0, 2], [4, 4, 3], [3, 0]] [2, 3] := by
  have occ : ∀ r ∈ [2, 3], Occurs [[0, 2], [4, 4, 3], [3, 0]] r := by
    intro r hr
    simp only [List.mem_cons, List.not_mem_nil, or_false] at hr
    rcases hr with rfl | rfl
    · exact ⟨[0, 2], by decide, by decide⟩
    · exact ⟨[3, 0], by decide, by decide⟩
  refine ⟨?_, ⟨by decide, occ, by decide⟩, ⟨by decide, occ, by decide⟩⟩
  cases oc
  · exact solveNewG_eq _ 40 (by decide +kernel) (by simp)
  · exact solveNewG_eq _ 40 (by decide +kernel) (by simp)

/-- The builds differ on repeated rows. On `{0, 0, 0}` overflow checks panic, and without them `solve` reports
`NoSolution` although row 0 is an exact cover. On `{1, 3, 3, 3}` they panic, and without them `solve` answers. On
`{1, 0, 1, 1}` they panic, and without them `solve` uses freed memory. -/
theorem C130_builds :
    solveNewG (.build true) [[0, 0, 0]] = .panic ∧ solveNewG (.build false) [[0, 0, 0]] = .ok (.error .noSolution) ∧
    solveNewG (.build true) [[1, 3, 3, 3]] = .panic ∧ solveNewG (.build false) [[1, 3, 3, 3]] = .ok (.ok [1]) ∧
    solveNewG (.build true) [[1, 0, 1, 1]] = .panic ∧ solveNewG (.build false) [[1, 0, 1, 1]] = .ub :=
  ⟨solveNewG_eq _ 20 (by decide +kernel) (by simp), solveNewG_eq _ 20 (by decide +kernel) (by simp),
   solveNewG_eq _ 20 (by decide +kernel) (by simp), solveNewG_eq _ 20 (by decide +kernel) (by simp),
   solveNewG_eq _ 20 (by decide +kernel) (by simp), solveNewG_eq _ 20 (by decide +kernel) (by simp)⟩

/-- A history with an accepted row, in a matrix with repeated rows. -/
example : ∃ m h, Hist repM [(8, .ok ())] m h ∧ AtMostOnce repM [8] := by
  have e : addNew repM 8 = .ok (.ok ()) := addNew_eq 40 (by decide +kernel) (by simp)
  obtain ⟨⟨m, h⟩, e1, e⟩ := Limit.bind_ok e
  obtain ⟨⟨res, m', h'⟩, e2, e⟩ := Limit.bind_ok e
  cases e
  have H : Hist repM [(8, .ok ())] m' h' := Hist.add (.new e1) e2
  exact ⟨m', h', H, by simpa [accepted] using (C130_model repM H).1⟩

example : AtMostOnce repM [1, 7, 2] := by
  obtain ⟨h0, rows, HR, V, RW, e0, B, _⟩ := new_bldR repM
  have h := (C130_not_cover true).1
  unfold solveNewG at h
  rw [e0, Prog.ok_bind] at h
  obtain ⟨⟨res, h'⟩, e1, e2⟩ := Limit.bind_ok h
  cases e2
  obtain ⟨S, hS, hA⟩ := C130_answer _ repM (.new e0) e1
  simp [pushed] at hS
  simpa [accepted, ← hS] using hA

end DancingLinks.Props
