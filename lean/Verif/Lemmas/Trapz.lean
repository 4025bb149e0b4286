import Verif.Num.Arr
import Verif.Spec.Density

noncomputable section

namespace GW.Arr

open Fl GW.Spec

@[simp] theorem trapzR_nil (xs : List ℝ) : trapzR [] xs = 0 := by simp [trapzR]
@[simp] theorem trapzR_one (y : ℝ) (xs : List ℝ) : trapzR [y] xs = 0 := by simp [trapzR]
@[simp] theorem trapzR_x_nil (ys : List ℝ) : trapzR ys [] = 0 := by
  rcases ys with _ | ⟨_, _ | _⟩ <;> simp [trapzR]
@[simp] theorem trapzR_x_one (ys : List ℝ) (x : ℝ) : trapzR ys [x] = 0 := by
  rcases ys with _ | ⟨_, _ | _⟩ <;> simp [trapzR]
theorem trapzR_cons (y0 y1 : ℝ) (ys : List ℝ) (x0 x1 : ℝ) (xs : List ℝ) :
    trapzR (y0 :: y1 :: ys) (x0 :: x1 :: xs) =
      (x1 - x0) * (y1 + y0) / 2 + trapzR (y1 :: ys) (x1 :: xs) := by rw [trapzR]

/-- Induction principle following the recursion of `trapzR`. -/
theorem trapz_induction {P : List ℝ → List ℝ → Prop}
    (h1 : ∀ xs, P [] xs) (h2 : ∀ y xs, P [y] xs) (h3 : ∀ ys, P ys []) (h4 : ∀ ys x, P ys [x])
    (h5 : ∀ y0 y1 ys x0 x1 xs, P (y1 :: ys) (x1 :: xs) → P (y0 :: y1 :: ys) (x0 :: x1 :: xs)) :
    ∀ ys xs, P ys xs := by
  intro ys
  induction ys with
  | nil => exact h1
  | cons y0 ys ih =>
    intro xs
    cases ys with
    | nil => exact h2 y0 xs
    | cons y1 ys =>
      cases xs with
      | nil => exact h3 _
      | cons x0 xs =>
        cases xs with
        | nil => exact h4 _ _
        | cons x1 xs => exact h5 _ _ _ _ _ _ (ih (x1 :: xs))

theorem trapzR_map_mul (c : ℝ) (ys xs : List ℝ) :
    trapzR (ys.map (fun y => y * c)) xs = trapzR ys xs * c := by
  induction ys, xs using trapz_induction with
  | h5 y0 y1 ys x0 x1 xs ih =>
    simp only [List.map_cons] at ih ⊢
    rw [trapzR_cons, ih, trapzR_cons]; ring
  | _ => simp

theorem trapzR_map_div (c : ℝ) (ys xs : List ℝ) :
    trapzR (ys.map (fun y => y / c)) xs = trapzR ys xs / c := by
  simp only [div_eq_mul_inv]
  exact trapzR_map_mul c⁻¹ ys xs

theorem trapzR_map_add {α : Type*} (l : List α) (f g : α → ℝ) (xs : List ℝ) :
    trapzR (l.map (fun a => f a + g a)) xs = trapzR (l.map f) xs + trapzR (l.map g) xs := by
  induction l generalizing xs with
  | nil => simp
  | cons a l ih =>
    cases l with
    | nil => simp
    | cons b l =>
      rcases xs with _ | ⟨x0, _ | ⟨x1, xs⟩⟩
      · simp
      · simp
      · have := ih (x1 :: xs)
        simp only [List.map_cons] at this ⊢
        rw [trapzR_cons, this, trapzR_cons, trapzR_cons]; ring

theorem trapzR_nonneg {ys xs : List ℝ} (hy : ∀ y ∈ ys, 0 ≤ y) (hx : xs.IsChain (· ≤ ·)) :
    0 ≤ trapzR ys xs := by
  induction ys, xs using trapz_induction with
  | h5 y0 y1 ys x0 x1 xs ih =>
    rw [trapzR_cons]
    rw [List.isChain_cons_cons] at hx
    have h1 := hy y0 (by simp)
    have h2 := hy y1 (by simp)
    have := ih (fun y h => hy y (by simp [List.mem_cons.1 h])) hx.2
    have h3 : 0 ≤ (x1 - x0) * (y1 + y0) / 2 :=
      div_nonneg (mul_nonneg (by linarith [hx.1]) (by linarith)) (by norm_num)
    linarith
  | _ => simp

theorem trapzR_pos {ys xs : List ℝ} (hlen : ys.length = xs.length) (h2 : 2 ≤ xs.length)
    (hy : ∀ y ∈ ys, 0 < y) (hx : xs.IsChain (· < ·)) : 0 < trapzR ys xs := by
  rcases ys with _ | ⟨y0, _ | ⟨y1, ys⟩⟩
  · simp at hlen; omega
  · simp at hlen; omega
  · rcases xs with _ | ⟨x0, _ | ⟨x1, xs⟩⟩
    · simp at h2
    · simp at h2
    · rw [trapzR_cons]
      rw [List.isChain_cons_cons] at hx
      have h1 := hy y0 (by simp)
      have h2 := hy y1 (by simp)
      have h3 : 0 < (x1 - x0) * (y1 + y0) / 2 :=
        div_pos (mul_pos (by linarith [hx.1]) (by linarith)) (by norm_num)
      have h4 : 0 ≤ trapzR (y1 :: ys) (x1 :: xs) :=
        trapzR_nonneg (fun y h => (hy y (by simp [List.mem_cons.1 h])).le)
          (hx.2.imp (fun _ _ h => h.le))
      linarith

theorem trapzR_append (ys₁ : List ℝ) (y : ℝ) (ys₂ xs₁ : List ℝ) (x : ℝ) (xs₂ : List ℝ)
    (h : ys₁.length = xs₁.length) :
    trapzR (ys₁ ++ y :: ys₂) (xs₁ ++ x :: xs₂) =
      trapzR (ys₁ ++ [y]) (xs₁ ++ [x]) + trapzR (y :: ys₂) (x :: xs₂) := by
  induction ys₁ generalizing xs₁ with
  | nil =>
    have : xs₁ = [] := List.length_eq_zero_iff.1 h.symm
    subst this; simp
  | cons a ys₁ ih =>
    rcases xs₁ with _ | ⟨b, xs₁⟩
    · simp at h
    · have h' : ys₁.length = xs₁.length := by simpa using h
      have := ih xs₁ h'
      rcases ys₁ with _ | ⟨a', ys₁⟩
      · have : xs₁ = [] := List.length_eq_zero_iff.1 h'.symm
        subst this
        simp [trapzR_cons]
      · rcases xs₁ with _ | ⟨b', xs₁⟩
        · simp at h'
        · simp only [List.cons_append] at this ⊢
          rw [trapzR_cons, this, trapzR_cons]; ring

theorem trapzR_eq_rule (ys xs : List ℝ) (h : ys.length = xs.length) :
    trapzR ys xs =
      trapezoidRule (ys.length - 1) (fun i => ys.getD i 0) (fun i => xs.getD i 0) := by
  induction ys generalizing xs with
  | nil => simp [trapezoidRule]
  | cons y0 ys ih =>
    rcases ys with _ | ⟨y1, ys⟩
    · simp [trapezoidRule]
    · rcases xs with _ | ⟨x0, _ | ⟨x1, xs⟩⟩
      · simp at h
      · simp at h
      · have := ih (x1 :: xs) (by simpa using h)
        rw [trapzR_cons, this]
        simp only [List.length_cons, Nat.add_sub_cancel, trapezoidRule]
        rw [Finset.sum_range_succ']
        simp
        ring

end GW.Arr
