import Verif.Model.Image
import Mathlib.Tactic.SplitIfs

/-! Sequences of `put_pixel` calls. -/

theorem forIn'_congr_mem {σ α : Type} {xs : List α} {b1 b2 : σ → α → Prog σ}
    (h : ∀ s, ∀ x ∈ xs, b1 s x = b2 s x) (s : σ) : forIn' xs s b1 = forIn' xs s b2 := by
  induction xs generalizing s with
  | nil => rfl
  | cons x xs ih =>
    rw [forIn'_cons, forIn'_cons, h s x (by simp)]
    congr 1; funext s'
    exact ih (fun s y hy => h s y (by simp [hy])) s'

theorem forIn'_flatMap {σ α β : Type} (xs : List α) (f : α → List β) (g : σ → β → Prog σ) (s : σ) :
    forIn' xs s (fun s x => forIn' (f x) s g) = forIn' (xs.flatMap f) s g := by
  induction xs generalizing s with
  | nil => rfl
  | cons x xs ih =>
    rw [forIn'_cons, List.flatMap_cons, forIn'_append]
    congr 1; funext s'; exact ih s'

/-- A pixel write: position and colour. -/
structure Put where
  x : Nat
  y : Nat
  c : Rgb

def Img.put (img : Img) (p : Put) : Prog Img := img.putPixel p.x p.y p.c

/-- The image after a list of writes. -/
def Img.puts (img : Img) (ps : List Put) : Img := ps.foldl (fun i p => i.set p.x p.y p.c) img

@[simp] theorem Img.puts_width (img : Img) (ps : List Put) : (img.puts ps).width = img.width := by
  induction ps generalizing img with
  | nil => rfl
  | cons p ps ih => exact ih (img.set p.x p.y p.c)
@[simp] theorem Img.puts_height (img : Img) (ps : List Put) : (img.puts ps).height = img.height := by
  induction ps generalizing img with
  | nil => rfl
  | cons p ps ih => exact ih (img.set p.x p.y p.c)

theorem Img.puts_append (img : Img) (ps qs : List Put) : img.puts (ps ++ qs) = (img.puts ps).puts qs := by
  simp [Img.puts]

theorem Img.put_ok {img : Img} {p : Put} (h : p.x < img.width ∧ p.y < img.height) :
    img.put p = .ok (img.set p.x p.y p.c) := by simp [Img.put, Img.putPixel, h]

theorem forIn'_put {img : Img} {ps : List Put} (h : ∀ p ∈ ps, p.x < img.width ∧ p.y < img.height) :
    forIn' ps img Img.put = .ok (img.puts ps) := by
  induction ps generalizing img with
  | nil => rfl
  | cons p ps ih =>
    rw [forIn'_cons, Img.put_ok (h p (by simp))]
    exact ih (img := img.set p.x p.y p.c) (fun q hq => h q (by simp [hq]))

/-- A write outside the image panics. -/
theorem forIn'_put_panic {img : Img} {ps : List Put} (h : ∃ p ∈ ps, ¬ (p.x < img.width ∧ p.y < img.height)) :
    forIn' ps img Img.put = .panic := by
  induction ps generalizing img with
  | nil => simp at h
  | cons p ps ih =>
    rw [forIn'_cons]
    by_cases hp : p.x < img.width ∧ p.y < img.height
    · rw [Img.put_ok hp]
      obtain ⟨q, hq, hn⟩ := h
      rcases List.mem_cons.1 hq with rfl | hq
      · exact absurd hp hn
      · exact ih (img := img.set p.x p.y p.c) ⟨q, hq, hn⟩
    · simp [Img.put, Img.putPixel, hp]

theorem Img.puts_px_notMem {img : Img} {ps : List Put} {x y : Nat} (h : ∀ p ∈ ps, ¬ (p.x = x ∧ p.y = y)) :
    (img.puts ps).px x y = img.px x y := by
  induction ps generalizing img with
  | nil => rfl
  | cons p ps ih =>
    have h1 := ih (img := img.set p.x p.y p.c) (fun q hq => h q (by simp [hq]))
    have h2 := h p (by simp)
    change ((img.set p.x p.y p.c).puts ps).px x y = _
    rw [h1]
    simp only [Img.set]
    rw [if_neg]; rintro ⟨rfl, rfl⟩; exact h2 ⟨rfl, rfl⟩

/-- If every write to `(x, y)` has colour `c` and there is one, the pixel ends with colour `c`. -/
theorem Img.puts_px_mem {img : Img} {ps : List Put} {x y : Nat} {c : Rgb}
    (h : ∃ p ∈ ps, p.x = x ∧ p.y = y) (hc : ∀ p ∈ ps, p.x = x → p.y = y → p.c = c) :
    (img.puts ps).px x y = c := by
  induction ps generalizing img with
  | nil => simp at h
  | cons p ps ih =>
    change ((img.set p.x p.y p.c).puts ps).px x y = _
    by_cases hq : ∃ q ∈ ps, q.x = x ∧ q.y = y
    · exact ih hq (fun q hq => hc q (by simp [hq]))
    · rw [Img.puts_px_notMem (by intro q hq' he; exact hq ⟨q, hq', he⟩)]
      obtain ⟨q, hq1, hq2, hq3⟩ := h
      rcases List.mem_cons.1 hq1 with rfl | hq1
      · simp only [Img.set, hq2, hq3, and_self, if_true]; exact hc q (by simp) hq2 hq3
      · exact absurd ⟨q, hq1, hq2, hq3⟩ hq

/-- Writes of one colour. -/
theorem Img.puts_px_one {img : Img} {ps : List Put} {c : Rgb} (hc : ∀ p ∈ ps, p.c = c) (x y : Nat) :
    ((∃ p ∈ ps, p.x = x ∧ p.y = y) → (img.puts ps).px x y = c) ∧
    ((¬ ∃ p ∈ ps, p.x = x ∧ p.y = y) → (img.puts ps).px x y = img.px x y) :=
  ⟨fun h => Img.puts_px_mem h (fun p hp _ _ => hc p hp), fun h => Img.puts_px_notMem (fun p hp e => h ⟨p, hp, e⟩)⟩

/-- `fill` of two nested loops whose inner body is a list of writes. -/
theorem forIn'_puts {α : Type} {xs : List α} {f : α → List Put} {body : Img → α → Prog Img} {img : Img}
    (hb : ∀ (i : Img), i.width = img.width → i.height = img.height → ∀ x ∈ xs, body i x = .ok (i.puts (f x))) :
    forIn' xs img body = .ok (img.puts (xs.flatMap f)) := by
  induction xs generalizing img with
  | nil => rfl
  | cons x xs ih =>
    rw [forIn'_cons, hb img rfl rfl x (by simp), Prog.ok_bind, List.flatMap_cons, Img.puts_append]
    apply ih
    intro i h1 h2 y hy
    exact hb i (by simpa using h1) (by simpa using h2) y (by simp [hy])
