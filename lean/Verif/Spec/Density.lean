import Verif.Py
import Mathlib.MeasureTheory.Integral.IntervalIntegral.Basic

/-!
# Specification vocabulary: normalised densities
-/

noncomputable section

open MeasureTheory

namespace GW.Spec

/-- The density proportional to `f` on `[lo, hi]` and zero elsewhere. -/
def normalised (f : ℝ → ℝ) (lo hi x : ℝ) : ℝ :=
  open Classical in if lo ≤ x ∧ x ≤ hi then f x / ∫ t in lo..hi, f t else 0

/-- A computation `f` (which may raise an exception and returns a float) is a probability
density on the set `S`: at every point of `S` it returns, without raising, a finite
non-negative number, and these numbers integrate to one over `S`. -/
def IsDensityOn {X : Type*} [MeasureSpace X] (f : X → Except PyErr Fl) (S : Set X) : Prop :=
  ∃ g : X → ℝ, (∀ x ∈ S, f x = .ok (.fin (g x))) ∧ (∀ x ∈ S, 0 ≤ g x) ∧
    IntegrableOn g S ∧ ∫ x in S, g x = 1

/-- The trapezoid rule for samples `y i` at nodes `x i`, `i = 0, ..., n`. -/
def trapezoidRule (n : ℕ) (y x : ℕ → ℝ) : ℝ :=
  ∑ i ∈ Finset.range n, (x (i + 1) - x i) * (y i + y (i + 1)) / 2

end GW.Spec
