import Verif.Num.Arr
import Verif.Py
import Mathlib.Data.List.Sort

/-!
# Arrays with any number of axes

An array is its shape and the element at each multi-index. Only what `vt.GridVT` uses.
-/

noncomputable section

open Classical

namespace GW

open Fl

/-- An n-dimensional array of floats. Only the elements at multi-indices inside the shape matter. -/
structure ND where
  /-- `a.shape` -/
  shape : List ℕ
  /-- the element at a multi-index -/
  at_ : List ℕ → Fl

namespace ND

/-- All multi-indices of a shape, the last axis running fastest. -/
def indices : List ℕ → List (List ℕ)
  | [] => [[]]
  | n :: s => (List.range n).flatMap fun i => (indices s).map (i :: ·)

/-- `a.flatten()`. -/
def flatten (a : ND) : List Fl := (indices a.shape).map a.at_

/-- The order `numpy.sort` uses: NaN last. -/
def sortLe (x y : Fl) : Prop := x ≤ y ∨ y = nan

/-- `numpy.unique(a)`: the sorted distinct elements (several NaN count as one). -/
def unique (a : ND) : List Fl := (a.flatten.dedup).mergeSort fun x y => decide (sortLe x y)

/-- `a * b` for arrays of the same shape; `ValueError` otherwise. Simplification: no
broadcasting between different shapes. -/
def mul (a b : ND) : Except PyErr ND :=
  if a.shape = b.shape then .ok ⟨a.shape, fun i => a.at_ i * b.at_ i⟩ else .error .valueError

/-- `trapezoid(a, x, axis=-1)` with a 1-d `x`: the last axis is integrated out. An array without
axes raises (`numpy.AxisError`, a `ValueError`), and so does a last axis that does not have
the length of `x`. Simplification: numpy would broadcast lengths 2 against other lengths. -/
def trapzLast (a : ND) (x : List Fl) : Except PyErr ND :=
  match a.shape.getLast? with
  | none => .error .valueError
  | some n =>
    if n = x.length then
      .ok ⟨a.shape.dropLast, fun i =>
        Arr.trapz ((List.range n).map fun j => a.at_ (i ++ [j])) x⟩
    else .error .valueError

end ND

end GW
