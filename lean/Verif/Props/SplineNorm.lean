import Verif.Props.SplineValue
import Verif.Props.SmoothedNorm

/-!
# C36: when the norm of a spline model is positive

The statements of C36 about a density need a non-zero norm; here is exactly when the norm is not zero.
-/

namespace GW

open Fl Spec SplineModel

/-- **C36.** On an increasing grid with at least two points, the norm is never negative, and it is positive exactly if
some grid point lies between the outer nodes: the density is defined exactly then. -/
theorem C36_norm (S : String → List ℝ → List ℝ → ℝ → ℝ) (c : SplineConfig) {grid x : List ℝ} (f : List ℝ)
    (hg : grid.IsChain (· < ·)) (h2 : 2 ≤ grid.length) :
    0 ≤ splineNorm S c grid x f ∧ (0 < splineNorm S c grid x f ↔ ∃ v ∈ grid, Between x v) ∧
    (splineNorm S c grid x f ≠ 0 ↔ ∃ v ∈ grid, Between x v) := by
  have hnn : ∀ v, 0 ≤ cutSpline S c x f v := by
    intro v
    unfold cutSpline
    split_ifs
    · exact (Real.exp_pos _).le
    · exact le_refl _
  have h0 : 0 ≤ splineNorm S c grid x f := by
    refine Arr.trapzR_nonneg ?_ (hg.imp fun _ _ h => le_of_lt h)
    intro y hy
    obtain ⟨w, -, rfl⟩ := List.mem_map.1 hy
    exact hnn w
  have h1 : (∃ v ∈ grid, Between x v) → 0 < splineNorm S c grid x f := by
    rintro ⟨v, hv, hb⟩
    refine trapzR_pos_of_exists (by simp) h2 ?_ (List.isChain_iff_pairwise.1 hg) ?_
    · intro y hy
      obtain ⟨w, -, rfl⟩ := List.mem_map.1 hy
      exact hnn w
    · refine ⟨_, List.mem_map.2 ⟨v, hv, rfl⟩, ?_⟩
      unfold cutSpline
      rw [if_pos hb]
      exact Real.exp_pos _
  have h3 : (¬ ∃ v ∈ grid, Between x v) → splineNorm S c grid x f = 0 := by
    intro h
    have : grid.map (cutSpline S c x f) = grid.map (fun v => (0 : ℝ) * cutSpline S c x f v) := by
      refine List.map_congr_left fun v hv => ?_
      unfold cutSpline
      rw [if_neg fun hb => h ⟨v, hv, hb⟩, mul_zero]
    unfold splineNorm
    rw [this]
    have e : ∀ l g : List ℝ, Arr.trapzR (l.map fun _ => (0 : ℝ)) g = 0 := by
      intro l
      induction l with
      | nil => intro g; simp [Arr.trapzR]
      | cons a l ih =>
        intro g
        cases l with
        | nil => simp [Arr.trapzR]
        | cons a' l =>
          match g with
          | [] => simp [Arr.trapzR]
          | [_] => simp [Arr.trapzR]
          | g0 :: g1 :: g =>
            have := ih (g1 :: g)
            simp only [List.map_cons] at this ⊢
            simp only [Arr.trapzR, this]
            ring
    simp only [zero_mul]
    exact e _ _
  refine ⟨h0, ⟨fun h => ?_, h1⟩, fun h => ?_, fun h => (h1 h).ne'⟩
  · by_contra hc
    exact h.ne' (h3 hc)
  · by_contra hc
    exact h (h3 hc)

/-- Non-vacuity: a grid of three points with one, and with no point between the nodes. -/
example : 0 < splineNorm (fun _ _ _ v => v) ⟨["a_1"], 0, 1, 2, "linear", false, false⟩ [0, 1 / 2, 1] [1 / 4, 3 / 4] [0, 0] ∧
    splineNorm (fun _ _ _ v => v) ⟨["a_1"], 0, 1, 2, "linear", false, false⟩ [0, 1 / 2, 1] [1 / 8, 1 / 4] [0, 0] = 0 := by
  have hg : [(0 : ℝ), 1 / 2, 1].IsChain (· < ·) := by
    simp [List.isChain_cons_cons]
    norm_num
  refine ⟨(C36_norm _ _ _ hg (by simp)).2.1.2 ⟨1 / 2, by simp, ?_⟩, ?_⟩
  · norm_num [Between]
  · by_contra h
    obtain ⟨v, hv, hb⟩ := (C36_norm _ _ _ hg (by simp)).2.2.1 h
    norm_num [Between] at hv hb
    rcases hv with rfl | rfl | rfl <;> norm_num at hb

end GW
