import Verif.Num.Fl

/-!
# One-dimensional arrays

Arrays are lists of floats. Only the primitives the package uses are defined.
-/

noncomputable section

namespace GW

namespace Arr

open Fl

/-- `numpy.sum` of a 1-d array. -/
def sum (l : List Fl) : Fl := l.sum

/-- `numpy.mean` of a 1-d array (NaN for an empty array, as `0/0`). -/
def mean (l : List Fl) : Fl := l.sum / (l.length : Fl)

/-- `numpy.trapezoid(y, x)` for 1-d arrays of equal length: the sum of
`(x[i+1]-x[i]) * (y[i+1]+y[i]) / 2`. -/
def trapz : List Fl → List Fl → Fl
  | y0 :: y1 :: ys, x0 :: x1 :: xs => (x1 - x0) * (y1 + y0) / 2 + trapz (y1 :: ys) (x1 :: xs)
  | _, _ => 0

/-- `numpy.trapezoid(y, dx=dx)`. -/
def trapzDx (dx : Fl) : List Fl → Fl
  | y0 :: y1 :: ys => dx * (y1 + y0) / 2 + trapzDx dx (y1 :: ys)
  | _ => 0

/-- `numpy.linspace(a, b, n)` (exact arithmetic). -/
def linspaceR (a b : ℝ) (n : ℕ) : List ℝ :=
  (List.range n).map (fun i : ℕ => a + (b - a) * (i : ℝ) / ((n : ℝ) - 1))

/-- `numpy.linspace` as floats. -/
def linspace (a b : ℝ) (n : ℕ) : List Fl := (linspaceR a b n).map fin

/-- `numpy.clip(x, lo, hi)` (NaN stays NaN). -/
def clip (x lo hi : Fl) : Fl :=
  open Classical in
  match x with
  | .nan => .nan
  | x => if x < lo then lo else if hi < x then hi else x

/-- The trapezoid rule on real lists. -/
def trapzR : List ℝ → List ℝ → ℝ
  | y0 :: y1 :: ys, x0 :: x1 :: xs => (x1 - x0) * (y1 + y0) / 2 + trapzR (y1 :: ys) (x1 :: xs)
  | _, _ => 0

theorem trapz_fin (ys xs : List ℝ) : trapz (ys.map fin) (xs.map fin) = fin (trapzR ys xs) := by
  induction ys generalizing xs with
  | nil => simp [trapz, trapzR]
  | cons y0 ys ih =>
    cases ys with
    | nil => simp [trapz, trapzR]
    | cons y1 ys =>
      cases xs with
      | nil => simp [trapz, trapzR]
      | cons x0 xs =>
        cases xs with
        | nil => simp [trapz, trapzR]
        | cons x1 xs =>
          have := ih (x1 :: xs)
          simp only [List.map_cons] at this ⊢
          rw [trapz, trapzR, this]
          simp [fin_div]

end Arr

end GW
